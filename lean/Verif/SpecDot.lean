import Verif.Spec

/-!
# The DOT language

What Graphviz makes of a text, as far as it is needed here: tokens, statements, and the nodes and edges they stand
for (https://graphviz.org/doc/info/lang.html).  Left out: `strict`, undirected graphs, `subgraph` with a name, groups as
ends of edges, negative numerals, comments other than `#` to the end of the line.  A text using those is not read.
-/

namespace Verif

/-- An ID: unquoted or quoted, or an HTML string. -/
inductive DotId
  | text (s : List Char)
  | html (s : List Char)
  deriving DecidableEq, Repr

/-! ## Tokens -/

inductive DotKeyword
  | digraph | graph | node | edge | subgraph | strict
  deriving DecidableEq, Repr

inductive DotTok
  | id (i : DotId)
  | keyword (k : DotKeyword)
  | arrow
  /-- one of `{ } [ ] = ; , :` -/
  | sym (c : Char)
  deriving DecidableEq, Repr

/-- Where the tokenizer is. -/
inductive DotLex
  | start
  /-- in an unquoted word -/
  | word (acc : List Char)
  /-- in a quoted string -/
  | str (acc : List Char)
  /-- after a backslash in a quoted string -/
  | esc (acc : List Char)
  /-- in an HTML string, with the number of open `<` -/
  | html (depth : Nat) (acc : List Char)
  | comment
  /-- after `-` -/
  | minus
  deriving DecidableEq, Repr

def isDotSpace (c : Char) : Bool := c = ' ' || c = '\t' || c = '\n' || c = '\r'

/-- A letter or `_`. -/
def isDotLetter (c : Char) : Bool :=
  ('a'.toNat ≤ c.toNat && c.toNat ≤ 'z'.toNat) || ('A'.toNat ≤ c.toNat && c.toNat ≤ 'Z'.toNat) || c = '_'
    || 128 ≤ c.toNat

def isDotDigit (c : Char) : Bool := '0'.toNat ≤ c.toNat && c.toNat ≤ '9'.toNat

def isDotWordChar (c : Char) : Bool := isDotLetter c || isDotDigit c || c = '.'

/-- An identifier is made of letters and digits and starts with a letter; a numeral consists of digits, with at most
one point among them. -/
def isDotWord : List Char → Bool
  | [] => false
  | c :: cs =>
    (isDotLetter c && cs.all fun d => isDotLetter d || isDotDigit d) ||
    ((c :: cs).all (fun d => isDotDigit d || d = '.') && (c :: cs).any isDotDigit && (c :: cs).count '.' ≤ 1)

/-- Keywords are not case sensitive. -/
def dotKeyword (s : List Char) : Option DotKeyword :=
  let l := s.map Char.toLower
  if l = "digraph".toList then some .digraph
  else if l = "graph".toList then some .graph
  else if l = "node".toList then some .node
  else if l = "edge".toList then some .edge
  else if l = "subgraph".toList then some .subgraph
  else if l = "strict".toList then some .strict
  else none

/-- The token of an unquoted word. -/
def dotWordTok (s : List Char) : Option DotTok :=
  if isDotWord s then
    match dotKeyword s with
    | some k => some (.keyword k)
    | none => some (.id (.text s))
  else none

/-- A character at the beginning of a token or between tokens: where the tokenizer is afterwards and the tokens
completed. -/
def lexStart (c : Char) : Option (DotLex × List DotTok) :=
  if isDotSpace c then some (.start, [])
  else if c = '"' then some (.str [], [])
  else if c = '<' then some (.html 1 [], [])
  else if c = '#' then some (.comment, [])
  else if c = '-' then some (.minus, [])
  else if c ∈ ['{', '}', '[', ']', '=', ';', ',', ':'] then some (.start, [.sym c])
  else if isDotWordChar c then some (.word [c], [])
  else none

/-- One character. -/
def lexStep : DotLex → Char → Option (DotLex × List DotTok)
  | .start, c => lexStart c
  | .word acc, c =>
    if isDotWordChar c then some (.word (acc ++ [c]), [])
    else do
      let t ← dotWordTok acc
      let r ← lexStart c
      some (r.1, t :: r.2)
  | .str acc, c =>
    if c = '"' then some (.start, [.id (.text acc)])
    else if c = '\\' then some (.esc acc, [])
    else some (.str (acc ++ [c]), [])
  | .esc acc, c =>
    if c = '"' then some (.str (acc ++ ['"']), [])
    else if c = '\n' then some (.str acc, [])
    else some (.str (acc ++ ['\\', c]), [])
  | .html d acc, c =>
    if c = '>' then if d = 1 then some (.start, [.id (.html acc)]) else some (.html (d - 1) (acc ++ [c]), [])
    else if c = '<' then some (.html (d + 1) (acc ++ [c]), [])
    else some (.html d (acc ++ [c]), [])
  | .comment, c => if c = '\n' then some (.start, []) else some (.comment, [])
  | .minus, c => if c = '>' then some (.start, [.arrow]) else none

/-- A piece of text. -/
def lexRun : DotLex → List Char → Option (DotLex × List DotTok)
  | s, [] => some (s, [])
  | s, c :: cs => do
    let r ← lexStep s c
    let q ← lexRun r.1 cs
    some (q.1, r.2 ++ q.2)

/-! ## Statements -/

/-- What a list of attributes belongs to: defaults for what is created later, or the nodes of a path. -/
inductive DotTarget
  | defaults (k : DotKeyword)
  | path (nodes : List DotId)
  deriving DecidableEq, Repr

abbrev DotAttrs := List (DotId × DotId)

/-- The statements of a graph in order; a group `{ … }` is between `enter` and `leave`. -/
inductive DotItem
  | enter
  | leave
  | assign (k v : DotId)
  /-- a node (one ID) or edges from each ID to the next, or defaults -/
  | stmt (t : DotTarget) (attrs : DotAttrs)
  deriving DecidableEq, Repr

/-- Where the parser is. -/
inductive DotPhase
  | graph
  | name
  | brace
  /-- at the beginning of a statement -/
  | stmt
  /-- after a statement that may be followed by `;` -/
  | after
  /-- after the last ID of a path; whether it may still have a port -/
  | path (nodes : List DotId) (port : Bool)
  /-- after `->` -/
  | next (nodes : List DotId)
  /-- after `:` -/
  | port (nodes : List DotId)
  /-- after `ID =` -/
  | value (k : DotId)
  /-- after `node`, `edge` or `graph` -/
  | keyword (k : DotKeyword)
  /-- in `[ … ]` before an attribute -/
  | attr (t : DotTarget) (attrs : DotAttrs)
  | attrEq (t : DotTarget) (attrs : DotAttrs) (k : DotId)
  | attrValue (t : DotTarget) (attrs : DotAttrs) (k : DotId)
  | attrSep (t : DotTarget) (attrs : DotAttrs)
  /-- after `]` -/
  | attrEnd (t : DotTarget) (attrs : DotAttrs)
  deriving DecidableEq, Repr

/-- The beginning of a statement; the number of open `{` is `depth`, 0 after the end of the graph. -/
def parseStmt (depth : Nat) (t : DotTok) : Option ((Nat × DotPhase) × List DotItem) :=
  if depth = 0 then none else
  match t with
  | .id i => some ((depth, .path [i] true), [])
  | .keyword .node => some ((depth, .keyword .node), [])
  | .keyword .edge => some ((depth, .keyword .edge), [])
  | .keyword .graph => some ((depth, .keyword .graph), [])
  | .sym '{' => some ((depth + 1, .stmt), [.enter])
  | .sym '}' => some ((depth - 1, .stmt), [.leave])
  | _ => none

/-- A token after a complete statement. -/
def parseAfter (depth : Nat) (t : DotTok) (item : List DotItem) : Option ((Nat × DotPhase) × List DotItem) :=
  if t = .sym ';' then some ((depth, .stmt), item)
  else do
    let r ← parseStmt depth t
    some (r.1, item ++ r.2)

/-- One token. -/
def parseStep : Nat × DotPhase → DotTok → Option ((Nat × DotPhase) × List DotItem)
  | (d, .graph), .keyword .digraph => some ((d, .name), [])
  | (d, .name), .id _ => some ((d, .brace), [])
  | (d, .name), .sym '{' => some ((d + 1, .stmt), [])
  | (d, .brace), .sym '{' => some ((d + 1, .stmt), [])
  | (d, .stmt), t => parseStmt d t
  | (d, .after), t => parseAfter d t []
  | (d, .path ns _), .arrow => some ((d, .next ns), [])
  | (d, .path ns _), .sym '[' => some ((d, .attr (.path ns) []), [])
  | (d, .path ns true), .sym ':' => some ((d, .port ns), [])
  | (d, .path [k] true), .sym '=' => some ((d, .value k), [])
  | (d, .path ns _), t => parseAfter d t [.stmt (.path ns) []]
  | (d, .next ns), .id i => some ((d, .path (ns ++ [i]) true), [])
  | (d, .port ns), .id _ => some ((d, .path ns false), [])
  | (d, .value k), .id v => some ((d, .after), [.assign k v])
  | (d, .keyword k), .sym '[' => some ((d, .attr (.defaults k) []), [])
  | (d, .attr t as), .id k => some ((d, .attrEq t as k), [])
  | (d, .attr t as), .sym ']' => some ((d, .attrEnd t as), [])
  | (d, .attrEq t as k), .sym '=' => some ((d, .attrValue t as k), [])
  | (d, .attrValue t as k), .id v => some ((d, .attrSep t (as ++ [(k, v)])), [])
  | (d, .attrSep t as), .sym ',' => some ((d, .attr t as), [])
  | (d, .attrSep t as), .sym ';' => some ((d, .attr t as), [])
  | (d, .attrSep t as), .sym ']' => some ((d, .attrEnd t as), [])
  | (d, .attrSep t as), .id k => some ((d, .attrEq t as k), [])
  | (d, .attrEnd t as), .sym '[' => some ((d, .attr t as), [])
  | (d, .attrEnd t as), tok => parseAfter d tok [.stmt t as]
  | _, _ => none

/-- A list of tokens. -/
def parseRun : Nat × DotPhase → List DotTok → Option ((Nat × DotPhase) × List DotItem)
  | s, [] => some (s, [])
  | s, t :: ts => do
    let r ← parseStep s t
    let q ← parseRun r.1 ts
    some (q.1, r.2 ++ q.2)

/-! ## Meaning -/

/-- The defaults in force. -/
structure DotDefaults where
  node : DotAttrs := []
  edge : DotAttrs := []
  deriving DecidableEq, Repr

/-- A graph: its node statements and its edges, with the attributes given and the defaults before them. -/
structure DotGraph where
  nodes : List (DotId × DotAttrs) := []
  edges : List (DotId × DotId × DotAttrs) := []
  deriving DecidableEq, Repr

def DotGraph.append (a b : DotGraph) : DotGraph := ⟨a.nodes ++ b.nodes, a.edges ++ b.edges⟩

/-- Edges from each ID to the next. -/
def dotPath (attrs : DotAttrs) : List DotId → List (DotId × DotId × DotAttrs)
  | a :: b :: rest => (a, b, attrs) :: dotPath attrs (b :: rest)
  | _ => []

/-- One statement: the defaults (those of the innermost group first) and what is drawn.  The defaults set in a group
end with it. -/
def meanItem : List DotDefaults → DotItem → List DotDefaults × DotGraph
  | ds, .enter => (ds.head?.getD {} :: ds, {})
  | ds, .leave => (ds.tail, {})
  | ds, .assign _ _ => (ds, {})
  | ds, .stmt (.defaults .node) as => ({ ds.head?.getD {} with node := (ds.head?.getD {}).node ++ as } :: ds.tail, {})
  | ds, .stmt (.defaults .edge) as => ({ ds.head?.getD {} with edge := (ds.head?.getD {}).edge ++ as } :: ds.tail, {})
  | ds, .stmt (.defaults _) _ => (ds, {})
  | ds, .stmt (.path [n]) as => (ds, { nodes := [(n, (ds.head?.getD {}).node ++ as)] })
  | ds, .stmt (.path ns) as => (ds, { edges := dotPath ((ds.head?.getD {}).edge ++ as) ns })

def meanRun : List DotDefaults → List DotItem → List DotDefaults × DotGraph
  | ds, [] => (ds, {})
  | ds, i :: is =>
    let r := meanItem ds i
    let q := meanRun r.1 is
    (q.1, r.2.append q.2)

/-- The statements of a text: nothing if it is not a graph in the DOT language. -/
def dotItems (s : List Char) : Option (List DotItem) := do
  let l ← lexRun .start s
  if l.1 ≠ .start then none else
  let p ← parseRun (0, .graph) l.2
  if p.1 ≠ (0, .stmt) then none else
  some p.2

/-- Reading a text. -/
def readDot (s : List Char) : Option DotGraph := (dotItems s).map fun is => (meanRun [{}] is).2

/-- A group: its rank, if one is set, and the nodes mentioned in it. -/
structure DotGroup where
  rank : Option DotId := none
  ids : List DotId := []
  deriving DecidableEq, Repr

/-- One statement: the open groups, the innermost first, and a closed one. -/
def groupItem : List DotGroup → DotItem → List DotGroup × List DotGroup
  | gs, .enter => ({} :: gs, [])
  | g :: gs, .leave => (gs, [g])
  | g :: gs, .assign k v => if k = .text "rank".toList then ({ g with rank := some v } :: gs, []) else (g :: gs, [])
  | g :: gs, .stmt (.path ns) _ => ({ g with ids := g.ids ++ ns } :: gs, [])
  | gs, _ => (gs, [])

def groupRun : List DotGroup → List DotItem → List DotGroup × List DotGroup
  | gs, [] => (gs, [])
  | gs, i :: is =>
    let r := groupItem gs i
    let q := groupRun r.1 is
    (q.1, r.2 ++ q.2)

/-- The groups of a text for which a rank is set, with the nodes in them: with rank `same` they are drawn in one row,
with `source` in the first one. -/
def readRows (s : List Char) : Option (List (DotId × List DotId)) := (dotItems s).map fun is =>
  (groupRun [{}] is).2.filterMap fun g => g.rank.map fun r => (r, g.ids)

/-- An attribute of the whole graph: the last one set outside of all groups; `d` groups are open before. -/
def graphAttr (k : List Char) : Nat → List DotItem → Option DotId
  | _, [] => none
  | d, .enter :: is => graphAttr k (d + 1) is
  | d, .leave :: is => graphAttr k (d - 1) is
  | d, .assign k' v :: is =>
    (graphAttr k d is).or (if d = 0 ∧ k' = .text k then some v else none)
  | d, .stmt _ _ :: is => graphAttr k d is

/-- An attribute of the whole graph. -/
def readAttr (s : List Char) (k : String) : Option DotId := (dotItems s).bind fun is => graphAttr k.toList 0 is

/-- The value of an attribute: the last one given. -/
def dotAttr (as : DotAttrs) (k : String) : Option DotId :=
  (as.reverse.find? fun a => a.1 = .text k.toList).map (·.2)

/-- The edges that are drawn, with their style. -/
def DotGraph.lines (g : DotGraph) : List (DotId × DotId × Option DotId) :=
  (g.edges.filter fun e => dotAttr e.2.2 "style" ≠ some (.text "invis".toList)).map
    fun e => (e.1, e.2.1, dotAttr e.2.2 "style")

/-- The edges that are not drawn. -/
def DotGraph.hidden (g : DotGraph) : List (DotId × DotId) :=
  (g.edges.filter fun e => dotAttr e.2.2 "style" = some (.text "invis".toList)).map fun e => (e.1, e.2.1)

/-- The labels given to nodes, in order. -/
def DotGraph.labels (g : DotGraph) : List (DotId × DotId) :=
  g.nodes.filterMap fun n => (dotAttr n.2 "label").map fun l => (n.1, l)

/-- Following a drawing: from a node, along solid lines out of nodes whose label is true and dashed lines out of
nodes whose label is false, down to a node labelled with a truth value (`&#8868;` is ⊤, `&#8869;` is ⊥). -/
inductive DotFollow (g : DotGraph) (val : List Char → Bool) : DotId → Bool → Prop
  | top {n} : (n, DotId.html "&#8868;".toList) ∈ g.labels → DotFollow g val n true
  | bot {n} : (n, DotId.html "&#8869;".toList) ∈ g.labels → DotFollow g val n false
  | solid {n n' l b} : (n, DotId.html l) ∈ g.labels → l ∉ ["&#8868;".toList, "&#8869;".toList] → val l = true →
      (n, n', none) ∈ g.lines → DotFollow g val n' b → DotFollow g val n b
  | dashed {n n' l b} : (n, DotId.html l) ∈ g.labels → l ∉ ["&#8868;".toList, "&#8869;".toList] → val l = false →
      (n, n', some (.text "dashed".toList)) ∈ g.lines → DotFollow g val n' b → DotFollow g val n b

/-! ## Names that can be written -/

/-- Every `<` is closed, and every `>` closes one; `depth` are open before. -/
def anglesMatch : Nat → List Char → Bool
  | d, [] => d = 0
  | d, c :: cs =>
    if c = '>' then d ≠ 0 && anglesMatch (d - 1) cs
    else if c = '<' then anglesMatch (d + 1) cs
    else anglesMatch d cs

/-- Neither quotation marks nor backslashes. -/
def quoteFree (s : List Char) : Bool := s.all fun c => c ≠ '"' && c ≠ '\\'

/-- An unquoted word that is not a keyword. -/
def dotPlain (w : List Char) : Prop := dotWordTok w = some (.id (.text w))

instance (w : List Char) : Decidable (dotPlain w) := inferInstanceAs (Decidable (_ = _))

/-- `DotPresentationConfig`, `/repo/src/util/dump_dot.hpp:11-32`, with the `float` members in the form in which they are
printed. -/
structure DotConf where
  nodeShape : List Char := "circle".toList
  nodeWidth : List Char := "0.35".toList
  terminalShape : List Char := "square".toList
  terminalWidth : List Char := "0.35".toList
  nameShape : List Char := "none".toList
  nameWidth : List Char := "0.2".toList
  nodeSep : List Char := "0.2".toList
  rankSep : List Char := "0.25".toList

/-- The configuration can be written: shapes and widths are words. -/
structure DotConf.Plain (conf : DotConf) : Prop where
  nodeShape : dotPlain conf.nodeShape
  nodeWidth : dotPlain conf.nodeWidth
  terminalShape : dotPlain conf.terminalShape
  terminalWidth : dotPlain conf.terminalWidth
  nameShape : dotPlain conf.nameShape
  nameWidth : dotPlain conf.nameWidth
  nodeSep : quoteFree conf.nodeSep = true
  rankSep : quoteFree conf.rankSep = true

/-- An ID as it is written: `<…>` is an HTML string. -/
def dotIdOf : List Char → DotId
  | '<' :: s => .html s.dropLast
  | s => .text s

/-! ## The nodes of a drawing -/

variable {m : Mgr}

/-- The terminals and the nodes of the functions, as handles with their complement bits. -/
def DrawnNode (bdds : List (BDD m)) (a : Edge) : Prop :=
  a.n = .one ∨ ∃ f ∈ bdds, a ∈ f.edge.n.reach f.edge.neg

/-- The nodes with variable `v`. -/
def DrawnVar (bdds : List (BDD m)) (v : Nat) (a : Edge) : Prop :=
  DrawnNode bdds a ∧ ∃ t c e, a.n = .node v t c e

/-- The shape and the width in a list of attributes. -/
def Shaped (as : DotAttrs) (shape width : List Char) : Prop :=
  dotAttr as "shape" = some (.text shape) ∧ dotAttr as "width" = some (.text width)

/-- Each element with the next one. -/
def steps (l : List DotId) : List (DotId × DotId) := l.zip l.tail

/-- Different handles to nodes of the functions are different pointers. -/
def Addresses (addr : Edge → Nat) (bdds : List (BDD m)) : Prop :=
  ∀ a b, DrawnNode bdds a → DrawnNode bdds b → addr a = addr b → a = b

end Verif

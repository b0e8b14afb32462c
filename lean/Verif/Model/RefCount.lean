import Verif.Model.Operators

/-!
# Reference counts in `src/approximation_operators/approximation_operators.cpp`

The operators once more, with pointers into CUDD's unique table instead of diagrams. The table holds an address for every
node; `refs` counts the references the program (or the manager itself, for the constant and the variables) holds to an
address. CUDD's own count also has the references of parent nodes; a node whose count is 0 is one that cannot be reached
from an address with a reference. `Cudd_bddIte` may collect all of those before it reads its arguments, and may use their
addresses again for new nodes. When it collects and which addresses it uses is arbitrary (`Env`). Reading, referencing or
dereferencing an address that is not in the table, and dereferencing one without references, is `Fault.ub`. Saturation of
the counts at 2^32 and the failure of an allocation (a result of `nullptr`) are left out.
-/

namespace Verif

/-- A `DdNode*`: the complement bit and the address. -/
structure Ptr where
  neg : Bool
  addr : Nat
  deriving DecidableEq, Repr

/-- The unique table, the references held, and the number of calls of `Cudd_bddIte` so far. -/
structure NodeTable where
  table : List (Nat × DD)
  refs : Nat → Nat
  calls : Nat

/-- What CUDD is free to choose: whether the n-th call collects garbage, and the address of a new node. -/
structure Env where
  gc : Nat → Bool
  alloc : List (Nat × DD) → DD → Nat

namespace NodeTable

/-- Reading the node behind a pointer, `/repo/src/approximation_operators/approximation_operators.cpp:115-133`. -/
def nodeAt (H : NodeTable) (a : Nat) : Except Fault DD :=
  match H.table.find? (fun x => x.1 = a) with
  | some x => .ok x.2
  | none => .error .ub

/-- The address of a node that is in the table; `Cudd_T` and `Cudd_E` in
`/repo/src/approximation_operators/approximation_operators.cpp:126-127`. -/
def addrOf (H : NodeTable) (d : DD) : Except Fault Nat :=
  match H.table.find? (fun x => x.2 = d) with
  | some x => .ok x.1
  | none => .error .ub

/-- `Cudd_ReadOne` or its complement, `/repo/src/approximation_operators/approximation_operators.cpp:163`. -/
def constant (H : NodeTable) (b : Bool) : Except Fault Ptr := do
  let a ← H.addrOf .one
  .ok ⟨!b, a⟩

/-- `Cudd_ReadVars`, `/repo/src/approximation_operators/approximation_operators.cpp:183`. -/
def readVar (H : NodeTable) (v : Nat) : Except Fault Ptr := do
  let a ← H.addrOf (.node v .one true .one)
  .ok ⟨false, a⟩

/-- `Cudd_Ref`, `/repo/src/approximation_operators/approximation_operators.cpp:180-189`. -/
def ref (H : NodeTable) (p : Ptr) : Except Fault NodeTable := do
  let _ ← H.nodeAt p.addr
  .ok { H with refs := Function.update H.refs p.addr (H.refs p.addr + 1) }

/-- `Cudd_RecursiveDeref`, `/repo/src/approximation_operators/approximation_operators.cpp:191-193`. The node stays in the
table until the next collection. -/
def deref (H : NodeTable) (p : Ptr) : Except Fault NodeTable := do
  let _ ← H.nodeAt p.addr
  if H.refs p.addr = 0 then .error .ub
  else .ok { H with refs := Function.update H.refs p.addr (H.refs p.addr - 1) }

/-- Can a node be reached from an address with a reference? -/
def live (H : NodeTable) (d : DD) : Bool := H.table.any (fun r => decide (0 < H.refs r.1) && decide (d ∈ r.2.subs))

/-- A garbage collection, possible in `/repo/src/approximation_operators/approximation_operators.cpp:185`. -/
def collect (H : NodeTable) : NodeTable := { H with table := H.table.filter (fun x => H.live x.2) }

/-- Entering the nodes of a result into the table,
`/repo/src/approximation_operators/approximation_operators.cpp:185`. -/
def intern (E : Env) : List DD → NodeTable → NodeTable
  | [], H => H
  | d :: ds, H => intern E ds
      (if H.table.any (fun x => x.2 = d) then H else { H with table := (E.alloc H.table d, d) :: H.table })

/-- `Cudd_bddIte`, `/repo/src/approximation_operators/approximation_operators.cpp:185`. -/
def ite (m : Mgr) (E : Env) (H : NodeTable) (f g h : Ptr) : Except Fault (Ptr × NodeTable) := do
  let H := if E.gc H.calls then H.collect else H
  let a ← H.nodeAt f.addr
  let b ← H.nodeAt g.addr
  let c ← H.nodeAt h.addr
  let r := Edge.apply m Bool.or (Edge.apply m Bool.and ⟨f.neg, a⟩ ⟨g.neg, b⟩)
    (Edge.apply m Bool.and (Edge.not ⟨f.neg, a⟩) ⟨h.neg, c⟩)
  let H := intern E r.n.subs { H with calls := H.calls + 1 }
  let i ← H.addrOf r.n
  .ok (⟨r.neg, i⟩, H)

end NodeTable

/-- A `std::map<DdNode*, α>`, `/repo/src/approximation_operators/approximation_operators.cpp:66`. -/
abbrev PMap (α : Type) := List (Ptr × α)

/-- `map.find(key)`. -/
def PMap.find {α : Type} : PMap α → Ptr → Option α
  | [], _ => none
  | (k, v) :: rest, p => if k = p then some v else PMap.find rest p

/-- The counts with pointers as keys, `/repo/src/approximation_operators/approximation_operators.cpp:382`. Counting
creates no nodes. -/
def ptrKeys (H : NodeTable) : NMap ℚ → Except Fault (PMap ℚ)
  | [] => .ok []
  | (k, q) :: rest => do
      let a ← H.addrOf k.n
      let rest ← ptrKeys H rest
      .ok ((⟨k.neg, a⟩, q) :: rest)

/-- Building the new node, `/repo/src/approximation_operators/approximation_operators.cpp:180-197`; the same lines are
`236-253` and `355-372`. -/
def rebuildP (m : Mgr) (E : Env) (H : NodeTable) (mp : PMap Ptr) (node : Ptr) (v : Nat) (tb eb : Ptr) :
    Except Fault (Ptr × PMap Ptr × NodeTable) := do
  let H ← H.ref tb
  let H ← H.ref eb
  let topv ← H.readVar v
  let H ← H.ref topv
  let r ← H.ite m E topv tb eb
  let H ← r.2.ref r.1
  let H ← H.deref topv
  let H ← H.deref tb
  let H ← H.deref eb
  .ok (r.1, (node, r.1) :: mp, H)

/-- `remove_children_rec`, `/repo/src/approximation_operators/approximation_operators.cpp:105-198`. The first number
bounds the depth of the recursion. -/
def removeChildrenP (m : Mgr) (E : Env) (ls le : Nat) (cnt : PMap ℚ) (removeHeavy subset : Bool) :
    Nat → Ptr → PMap Ptr → NodeTable → Except Fault (Ptr × PMap Ptr × NodeTable)
  | 0, _, _, _ => .error .fuel
  | fuel + 1, node, mp, H => do
    let d ← H.nodeAt node.addr
    match d with
    | .one => .ok (node, mp, H)
    | .node v t c e =>
      match PMap.find mp node with
      | some r => .ok (r, mp, H)
      | none => do
        let ta ← H.addrOf t
        let ea ← H.addrOf e
        let nv : Ptr := ⟨node.neg, ta⟩
        let nnv : Ptr := ⟨node.neg ^^ c, ea⟩
        if v < ls then do
          let tb ← removeChildrenP m E ls le cnt removeHeavy subset fuel nv mp H
          let eb ← removeChildrenP m E ls le cnt removeHeavy subset fuel nnv tb.2.1 tb.2.2
          rebuildP m E eb.2.2 eb.2.1 node v tb.1 eb.1
        else if v ≤ le then
          match PMap.find cnt nv, PMap.find cnt nnv with
          | some tc, some ec =>
            let thenIsHeavy : Bool := decide (tc > ec)
            if removeHeavy = thenIsHeavy then do
              let k ← H.constant (!subset)
              let eb ← removeChildrenP m E ls le cnt removeHeavy subset fuel nnv mp H
              rebuildP m E eb.2.2 eb.2.1 node v k eb.1
            else do
              let tb ← removeChildrenP m E ls le cnt removeHeavy subset fuel nv mp H
              let k ← tb.2.2.constant (!subset)
              rebuildP m E tb.2.2 tb.2.1 node v tb.1 k
          | _, _ => .error .logicError
        else .ok (node, mp, H)

/-- `round_rec`, `/repo/src/approximation_operators/approximation_operators.cpp:200-262`. -/
def roundP (m : Mgr) (E : Env) (ls : Nat) (cnt : PMap ℚ) :
    Nat → Ptr → PMap Ptr → NodeTable → Except Fault (Ptr × PMap Ptr × NodeTable)
  | 0, _, _, _ => .error .fuel
  | fuel + 1, node, mp, H => do
    let d ← H.nodeAt node.addr
    match d with
    | .one => .ok (node, mp, H)
    | .node v t c e =>
      match PMap.find mp node with
      | some r => .ok (r, mp, H)
      | none => do
        let ta ← H.addrOf t
        let ea ← H.addrOf e
        let nv : Ptr := ⟨node.neg, ta⟩
        let nnv : Ptr := ⟨node.neg ^^ c, ea⟩
        if v < ls then do
          let tb ← roundP m E ls cnt fuel nv mp H
          let eb ← roundP m E ls cnt fuel nnv tb.2.1 tb.2.2
          rebuildP m E eb.2.2 eb.2.1 node v tb.1 eb.1
        else match PMap.find cnt node with
          | none => .error .ub
          | some q => do
            let replace ← H.constant (decide (q > 1 / 2))
            .ok (replace, (node, replace) :: mp, H)

/-- `round_best_rec`, `/repo/src/approximation_operators/approximation_operators.cpp:264-373`. -/
def roundBestP (m : Mgr) (E : Env) (ls le : Nat) (cnt : PMap ℚ) :
    Nat → Ptr → PMap Ptr → NodeTable → Except Fault (Ptr × PMap Ptr × NodeTable)
  | 0, _, _, _ => .error .fuel
  | fuel + 1, node, mp, H => do
    let d ← H.nodeAt node.addr
    match d with
    | .one => .ok (node, mp, H)
    | .node v t c e =>
      match PMap.find mp node with
      | some r => .ok (r, mp, H)
      | none => do
        let ta ← H.addrOf t
        let ea ← H.addrOf e
        let nv : Ptr := ⟨node.neg, ta⟩
        let nnv : Ptr := ⟨node.neg ^^ c, ea⟩
        if v < ls then do
          let tb ← roundBestP m E ls le cnt fuel nv mp H
          let eb ← roundBestP m E ls le cnt fuel nnv tb.2.1 tb.2.2
          rebuildP m E eb.2.2 eb.2.1 node v tb.1 eb.1
        else if v ≤ le then
          match PMap.find cnt nv, PMap.find cnt nnv with
          | some tc, some ec =>
            if tc < ec ∧ tc < 1 - ec then do
              let k ← H.constant false
              let eb ← roundBestP m E ls le cnt fuel nnv mp H
              rebuildP m E eb.2.2 eb.2.1 node v k eb.1
            else if ec < tc ∧ ec < 1 - tc then do
              let tb ← roundBestP m E ls le cnt fuel nv mp H
              let k ← tb.2.2.constant false
              rebuildP m E tb.2.2 tb.2.1 node v tb.1 k
            else if tc > ec ∧ tc > 1 - ec then do
              let k ← H.constant true
              let eb ← roundBestP m E ls le cnt fuel nnv mp H
              rebuildP m E eb.2.2 eb.2.1 node v k eb.1
            else if ec > tc ∧ ec > 1 - tc then do
              let tb ← roundBestP m E ls le cnt fuel nv mp H
              let k ← tb.2.2.constant true
              rebuildP m E tb.2.2 tb.2.1 node v tb.1 k
            else do
              let k ← H.constant (decide (tc > 1 / 2))
              let l ← H.constant (decide (ec > 1 / 2))
              rebuildP m E H mp node v k l
          | _, _ => .error .logicError
        else .ok (node, mp, H)

/-- The constructor of `BDD`, which references the node, e.g.
`/repo/src/approximation_operators/approximation_operators.cpp:387`. -/
def wrapP (r : Ptr × PMap Ptr × NodeTable) : Except Fault (Ptr × NodeTable) := do
  let H ← r.2.2.ref r.1
  .ok (r.1, H)

/-- `round_any`, `/repo/src/approximation_operators/approximation_operators.cpp:375-388`. -/
def roundAnyP (m : Mgr) (E : Env) (H : NodeTable) (f : BDD m) (ls le : Nat) (removeHeavy subset : Bool) (fuel : Nat) :
    Except Fault (Ptr × NodeTable) := do
  let a ← H.addrOf f.edge.n
  let cnt ← ptrKeys H (countMinterms f)
  let r ← removeChildrenP m E ls le cnt removeHeavy subset fuel ⟨f.edge.neg, a⟩ [] H
  wrapP r

/-- `round_bdd`, `/repo/src/approximation_operators/approximation_operators.cpp:64-70`. -/
def roundBddP (m : Mgr) (E : Env) (H : NodeTable) (f : BDD m) (level fuel : Nat) : Except Fault (Ptr × NodeTable) := do
  let a ← H.addrOf f.edge.n
  let cnt ← ptrKeys H (countMinterms f)
  let r ← roundP m E level cnt fuel ⟨f.edge.neg, a⟩ [] H
  wrapP r

/-- `round_best`, `/repo/src/approximation_operators/approximation_operators.cpp:72-81`. -/
def roundBestOpP (m : Mgr) (E : Env) (H : NodeTable) (f : BDD m) (ls le fuel : Nat) : Except Fault (Ptr × NodeTable) := do
  let a ← H.addrOf f.edge.n
  let cnt ← ptrKeys H (countMinterms f)
  let r ← roundBestP m E ls le cnt fuel ⟨f.edge.neg, a⟩ [] H
  wrapP r

/-- `round_up` and `round_down`, `/repo/src/approximation_operators/approximation_operators.cpp:83-103`. -/
def roundUpDownP (m : Mgr) (E : Env) (H : NodeTable) (f : BDD m) (ls le : Nat) (subset : Bool) (fuel : Nat) :
    Except Fault (Ptr × NodeTable) := do
  let a ← H.addrOf f.edge.n
  let cnt ← ptrKeys H (countSolutions f)
  let r ← removeChildrenP m E ls le cnt false subset fuel ⟨f.edge.neg, a⟩ [] H
  wrapP r

end Verif

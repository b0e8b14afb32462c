import Verif.Model.RefCount

/-!
# Vocabulary for C112 and C113

A unique table is valid if addresses and nodes belong to each other one to one, children are in the table, and an address
without a node has no references.
-/

namespace Verif

/-- A valid unique table. -/
structure NodeTable.Valid (H : NodeTable) : Prop where
  addrs : (H.table.map Prod.fst).Nodup
  nodes : (H.table.map Prod.snd).Nodup
  closed : ∀ a d, (a, d) ∈ H.table → ∀ s ∈ d.subs, ∃ b, (b, s) ∈ H.table
  unused : ∀ a, (∀ d, (a, d) ∉ H.table) → H.refs a = 0

/-- Some object holds a reference to the node. -/
def NodeTable.Held (H : NodeTable) (d : DD) : Prop := ∃ a, (a, d) ∈ H.table ∧ 0 < H.refs a

/-- The node is part of one that is referenced. No collection may remove it. -/
def NodeTable.InUse (H : NodeTable) (d : DD) : Prop := ∃ r, H.Held r ∧ d ∈ r.subs

/-- The pointer is the handle `e`. -/
def NodeTable.IsHandle (H : NodeTable) (p : Ptr) (e : Edge) : Prop := p.neg = e.neg ∧ (p.addr, e.n) ∈ H.table

/-- New nodes get addresses that are not in use. -/
def Env.Fresh (E : Env) : Prop := ∀ T d x, x ∈ T → E.alloc T d ≠ x.1

/-- What an operator is called with: a valid table, an object that holds `f`, and the references of the manager to the
constant and to the variables. -/
structure NodeTable.Ready {m : Mgr} (H : NodeTable) (f : BDD m) : Prop where
  valid : H.Valid
  arg : H.Held f.edge.n
  one : H.Held .one
  vars : ∀ v ∈ f.supportIndices, H.Held (BDD.var v : BDD m).edge.n

/-- All references to addresses of the table. -/
def NodeTable.total (H : NodeTable) : Nat := (H.table.map (fun x => H.refs x.1)).sum

/-- Fraction of the inputs with value 1. -/
def share : DD → Bool → ℚ
  | .one, neg => if neg then 0 else 1
  | .node _ t c e, neg => (share t neg + share e (neg ^^ c)) / 2

/-- Number of solutions over the variables from the top one of the handle up to `tl`. -/
def solutions (tl : Nat) : DD → Bool → ℚ
  | .one, neg => share .one neg
  | .node v t c e, neg => share (.node v t c e) neg * 2 ^ (tl - v)

/-- The handles an operator builds a new version of. `go` says for an index and the two children whether it does so, and
then whether it goes into the then-child and into the else-child. -/
def touched (go : Nat → Edge → Edge → Option (Bool × Bool)) : DD → Bool → List Edge
  | .one, _ => []
  | .node v t c e, neg =>
    match go v ⟨neg, t⟩ ⟨neg ^^ c, e⟩ with
    | none => []
    | some (a, b) => ⟨neg, .node v t c e⟩ ::
        ((if a then touched go t neg else []) ++ (if b then touched go e (neg ^^ c) else []))

/-- Both children above the range, the one that stays within it; `w` compares the children. -/
def goRemove (w : Edge → ℚ) (ls le : Nat) (heavy : Bool) (v : Nat) (t e : Edge) : Option (Bool × Bool) :=
  if v < ls then some (true, true)
  else if v ≤ le then (if heavy = decide (w t > w e) then some (false, true) else some (true, false))
  else none

/-- `round_bdd` builds nodes only above the level. -/
def goRound (level v : Nat) (_ _ : Edge) : Option (Bool × Bool) := if v < level then some (true, true) else none

/-- `round_best` replaces the child that is closer to a constant, and both if they are equally close. -/
def goBest (ls le v : Nat) (t e : Edge) : Option (Bool × Bool) :=
  if v < ls then some (true, true)
  else if v ≤ le then
    some (decide (|share t.n t.neg - 1 / 2| < |share e.n e.neg - 1 / 2|),
      decide (|share e.n e.neg - 1 / 2| < |share t.n t.neg - 1 / 2|))
  else none

/-- What is left after an operator that built new versions of the handles `T` and returned `q` for `r`: the table is valid,
nothing that was in use has moved, `q` is `r`, and one reference for `q` and one for every handle of `T` has been added. -/
structure NodeTable.After {m : Mgr} (H : NodeTable) (T : List Edge) (q : Ptr) (r : BDD m) (H' : NodeTable) : Prop where
  valid : H'.Valid
  kept : ∀ a d, (a, d) ∈ H.table → H.InUse d → (a, d) ∈ H'.table ∧ H'.InUse d
  result : H'.IsHandle q r.edge
  refs : ∃ L : List (Edge × Nat), (L.map Prod.fst).Nodup ∧ (∀ k, k ∈ L.map Prod.fst ↔ k ∈ T) ∧
    ∀ a, H'.refs a = H.refs a + (if a = q.addr then 1 else 0) + (L.map Prod.snd).count a

/-- `n` times the same call, each result destroyed before the next call. -/
def roundAnyTimes (m : Mgr) (E : Env) (f : BDD m) (ls le : Nat) (heavy subset : Bool) (fuel : Nat) :
    Nat → NodeTable → Except Fault NodeTable
  | 0, H => .ok H
  | n + 1, H => do
    let r ← roundAnyP m E H f ls le heavy subset fuel
    let H ← r.2.deref r.1
    roundAnyTimes m E f ls le heavy subset fuel n H

end Verif

import Verif.Model.RefCount
import Verif.Model.Float

/-!
# The operators on CUDD's unique table, with counts that are `double`s

As in `Verif/Model/RefCount.lean`, with the counts of `Verif/Model/Float.lean`. `remove_children_rec` and `round_rec` only
compare counts and are the same.
-/

namespace Verif

/-- `round_best_rec`, `/repo/src/approximation_operators/approximation_operators.cpp:264-373`, with rounding of the
differences in the conditions. -/
def roundBestRecPF (rnd : ℚ → ℚ) (m : Mgr) (E : Env) (ls le : Nat) (cnt : PMap ℚ) :
    Nat → Ptr → PMap Ptr → NodeTable → Except Fault (Ptr × PMap Ptr × NodeTable)
  | 0, _, _, _ => .error .fuel
  | fuel + 1, node, mp, H => do
    let d ← H.nodeAt node.addr
    match d with
    | .one => .ok (node, mp, H)
    | .node v t c e =>
      match PMap.find mp node with
      | some r => .ok (r, mp, H)
      | none => do
        let ta ← H.addrOf t
        let ea ← H.addrOf e
        let nv : Ptr := ⟨node.neg, ta⟩
        let nnv : Ptr := ⟨node.neg ^^ c, ea⟩
        if v < ls then do
          let tb ← roundBestRecPF rnd m E ls le cnt fuel nv mp H
          let eb ← roundBestRecPF rnd m E ls le cnt fuel nnv tb.2.1 tb.2.2
          rebuildP m E eb.2.2 eb.2.1 node v tb.1 eb.1
        else if v ≤ le then
          match PMap.find cnt nv, PMap.find cnt nnv with
          | some tc, some ec =>
            if tc < ec ∧ tc < rnd (1 - ec) then do
              let k ← H.constant false
              let eb ← roundBestRecPF rnd m E ls le cnt fuel nnv mp H
              rebuildP m E eb.2.2 eb.2.1 node v k eb.1
            else if ec < tc ∧ ec < rnd (1 - tc) then do
              let tb ← roundBestRecPF rnd m E ls le cnt fuel nv mp H
              let k ← tb.2.2.constant false
              rebuildP m E tb.2.2 tb.2.1 node v tb.1 k
            else if tc > ec ∧ tc > rnd (1 - ec) then do
              let k ← H.constant true
              let eb ← roundBestRecPF rnd m E ls le cnt fuel nnv mp H
              rebuildP m E eb.2.2 eb.2.1 node v k eb.1
            else if ec > tc ∧ ec > rnd (1 - tc) then do
              let tb ← roundBestRecPF rnd m E ls le cnt fuel nv mp H
              let k ← tb.2.2.constant true
              rebuildP m E tb.2.2 tb.2.1 node v tb.1 k
            else do
              let k ← H.constant (decide (tc > 1 / 2))
              let l ← H.constant (decide (ec > 1 / 2))
              rebuildP m E H mp node v k l
          | _, _ => .error .logicError
        else .ok (node, mp, H)

/-- `round_any`, `/repo/src/approximation_operators/approximation_operators.cpp:375-388`. -/
def roundAnyPF (rnd : ℚ → ℚ) (m : Mgr) (E : Env) (H : NodeTable) (f : BDD m) (ls le : Nat) (removeHeavy subset : Bool)
    (fuel : Nat) : Except Fault (Ptr × NodeTable) := do
  let a ← H.addrOf f.edge.n
  let cnt ← ptrKeys H (countMintermsF rnd f)
  let r ← removeChildrenP m E ls le cnt removeHeavy subset fuel ⟨f.edge.neg, a⟩ [] H
  wrapP r

/-- `round_bdd`, `/repo/src/approximation_operators/approximation_operators.cpp:64-70`. -/
def roundBddPF (rnd : ℚ → ℚ) (m : Mgr) (E : Env) (H : NodeTable) (f : BDD m) (level fuel : Nat) :
    Except Fault (Ptr × NodeTable) := do
  let a ← H.addrOf f.edge.n
  let cnt ← ptrKeys H (countMintermsF rnd f)
  let r ← roundP m E level cnt fuel ⟨f.edge.neg, a⟩ [] H
  wrapP r

/-- `round_best`, `/repo/src/approximation_operators/approximation_operators.cpp:72-81`. -/
def roundBestPF (rnd : ℚ → ℚ) (m : Mgr) (E : Env) (H : NodeTable) (f : BDD m) (ls le fuel : Nat) :
    Except Fault (Ptr × NodeTable) := do
  let a ← H.addrOf f.edge.n
  let cnt ← ptrKeys H (countMintermsF rnd f)
  let r ← roundBestRecPF rnd m E ls le cnt fuel ⟨f.edge.neg, a⟩ [] H
  wrapP r

/-- `round_up` and `round_down`, `/repo/src/approximation_operators/approximation_operators.cpp:83-103`. -/
def roundUpDownPF (rnd : ℚ → ℚ) (m : Mgr) (E : Env) (H : NodeTable) (f : BDD m) (ls le : Nat) (subset : Bool)
    (fuel : Nat) : Except Fault (Ptr × NodeTable) := do
  let a ← H.addrOf f.edge.n
  let cnt ← ptrKeys H (countSolutionsF rnd f)
  let r ← removeChildrenP m E ls le cnt false subset fuel ⟨f.edge.neg, a⟩ [] H
  wrapP r

end Verif

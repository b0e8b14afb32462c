import Verif.Model.Count

/-!
# `src/approximation_operators/approximation_operators.cpp`

The recursive functions walk the diagram with the complement bit pushed to the children
(lines 125-131) and memoise results in `round_map`.  Recursion is structural on the regular node;
`hwf` records that CUDD's nodes are well-formed.  `Cudd_ReadVars(dd, varId)` is the variable of the
node, which exists because the node does.
-/

namespace Verif

variable {m : Mgr}

/-- A handle from complement bit and node. -/
def BDD.ofNode (neg : Bool) (d : DD) (h : d.WF m) : BDD m := ⟨⟨neg, d⟩, h⟩

/-- `subset ? Cudd_Not(Cudd_ReadOne(dd)) : Cudd_ReadOne(dd)`,
`/repo/src/approximation_operators/approximation_operators.cpp:163`, `173`. -/
def fillTerminal (subset : Bool) : BDD m := if subset then .zero else .one

/-- `remove_children_rec`,
`/repo/src/approximation_operators/approximation_operators.cpp:105-198`. -/
def removeChildrenRec (ls le : Nat) (cnt : NMap ℚ) (removeHeavy subset : Bool) :
    (d : DD) → d.WF m → Bool → NMap (BDD m) → Except Fault (BDD m × NMap (BDD m))
  | .one, h, neg, mp => .ok (BDD.ofNode neg .one h, mp)
  | .node v t c e, h, neg, mp =>
    match NMap.find mp ⟨neg, .node v t c e⟩ with
    | some r => .ok (r, mp)
    | none =>
      if v < ls then do
        let tb ← removeChildrenRec ls le cnt removeHeavy subset t h.1 neg mp
        let eb ← removeChildrenRec ls le cnt removeHeavy subset e h.2.1 (neg ^^ c) tb.2
        let neW := BDD.ite (.var v) tb.1 eb.1
        .ok (neW, NMap.insert eb.2 ⟨neg, .node v t c e⟩ neW)
      else if v ≤ le then
        match NMap.find cnt ⟨neg, t⟩, NMap.find cnt ⟨neg ^^ c, e⟩ with
        | some tc, some ec =>
          let thenIsHeavy : Bool := decide (tc > ec)
          if removeHeavy = thenIsHeavy then do
            let eb ← removeChildrenRec ls le cnt removeHeavy subset e h.2.1 (neg ^^ c) mp
            let neW := BDD.ite (.var v) (fillTerminal subset) eb.1
            .ok (neW, NMap.insert eb.2 ⟨neg, .node v t c e⟩ neW)
          else do
            let tb ← removeChildrenRec ls le cnt removeHeavy subset t h.1 neg mp
            let neW := BDD.ite (.var v) tb.1 (fillTerminal subset)
            .ok (neW, NMap.insert tb.2 ⟨neg, .node v t c e⟩ neW)
        | _, _ => .error .logicError
      else .ok (BDD.ofNode neg (.node v t c e) h, mp)

/-- `round_rec`, `/repo/src/approximation_operators/approximation_operators.cpp:200-262`.
Dereferencing a failed `find` (line 257-258) is undefined behaviour. -/
def roundRec (ls : Nat) (cnt : NMap ℚ) :
    (d : DD) → d.WF m → Bool → NMap (BDD m) → Except Fault (BDD m × NMap (BDD m))
  | .one, h, neg, mp => .ok (BDD.ofNode neg .one h, mp)
  | .node v t c e, h, neg, mp =>
    match NMap.find mp ⟨neg, .node v t c e⟩ with
    | some r => .ok (r, mp)
    | none =>
      if v < ls then do
        let tb ← roundRec ls cnt t h.1 neg mp
        let eb ← roundRec ls cnt e h.2.1 (neg ^^ c) tb.2
        let neW := BDD.ite (.var v) tb.1 eb.1
        .ok (neW, NMap.insert eb.2 ⟨neg, .node v t c e⟩ neW)
      else match NMap.find cnt ⟨neg, .node v t c e⟩ with
        | none => .error .ub
        | some q =>
          let replace : BDD m := if q > 1 / 2 then .one else .zero
          .ok (replace, NMap.insert mp ⟨neg, .node v t c e⟩ replace)

/-- `round_best_rec`, `/repo/src/approximation_operators/approximation_operators.cpp:264-373`. -/
def roundBestRec (ls le : Nat) (cnt : NMap ℚ) :
    (d : DD) → d.WF m → Bool → NMap (BDD m) → Except Fault (BDD m × NMap (BDD m))
  | .one, h, neg, mp => .ok (BDD.ofNode neg .one h, mp)
  | .node v t c e, h, neg, mp =>
    match NMap.find mp ⟨neg, .node v t c e⟩ with
    | some r => .ok (r, mp)
    | none =>
      if v < ls then do
        let tb ← roundBestRec ls le cnt t h.1 neg mp
        let eb ← roundBestRec ls le cnt e h.2.1 (neg ^^ c) tb.2
        let neW := BDD.ite (.var v) tb.1 eb.1
        .ok (neW, NMap.insert eb.2 ⟨neg, .node v t c e⟩ neW)
      else if v ≤ le then
        match NMap.find cnt ⟨neg, t⟩, NMap.find cnt ⟨neg ^^ c, e⟩ with
        | some tc, some ec =>
          if tc < ec ∧ tc < 1 - ec then do
            let eb ← roundBestRec ls le cnt e h.2.1 (neg ^^ c) mp
            let neW := BDD.ite (.var v) .zero eb.1
            .ok (neW, NMap.insert eb.2 ⟨neg, .node v t c e⟩ neW)
          else if ec < tc ∧ ec < 1 - tc then do
            let tb ← roundBestRec ls le cnt t h.1 neg mp
            let neW := BDD.ite (.var v) tb.1 .zero
            .ok (neW, NMap.insert tb.2 ⟨neg, .node v t c e⟩ neW)
          else if tc > ec ∧ tc > 1 - ec then do
            let eb ← roundBestRec ls le cnt e h.2.1 (neg ^^ c) mp
            let neW := BDD.ite (.var v) .one eb.1
            .ok (neW, NMap.insert eb.2 ⟨neg, .node v t c e⟩ neW)
          else if ec > tc ∧ ec > 1 - tc then do
            let tb ← roundBestRec ls le cnt t h.1 neg mp
            let neW := BDD.ite (.var v) tb.1 .one
            .ok (neW, NMap.insert tb.2 ⟨neg, .node v t c e⟩ neW)
          else
            let neW := BDD.ite (.var v) (if tc > 1 / 2 then .one else .zero)
              (if ec > 1 / 2 then .one else .zero)
            .ok (neW, NMap.insert mp ⟨neg, .node v t c e⟩ neW)
        | _, _ => .error .logicError
      else .ok (BDD.ofNode neg (.node v t c e) h, mp)

/-- `round_any`, `/repo/src/approximation_operators/approximation_operators.cpp:375-388`. -/
def roundAny (f : BDD m) (ls le : Nat) (removeHeavy subset : Bool) : Except Fault (BDD m) := do
  let r ← removeChildrenRec ls le (countMinterms f) removeHeavy subset f.edge.n f.wf f.edge.neg []
  .ok r.1

/-- `subset_light_child`, `/repo/src/approximation_operators/approximation_operators.cpp:36-41`. -/
def subsetLightChild (f : BDD m) (ls le : Nat) : Except Fault (BDD m) := roundAny f ls le false true
/-- `superset_heavy_child`, `/repo/src/approximation_operators/approximation_operators.cpp:43-48`. -/
def supersetHeavyChild (f : BDD m) (ls le : Nat) : Except Fault (BDD m) := roundAny f ls le true false
/-- `superset_light_child`, `/repo/src/approximation_operators/approximation_operators.cpp:50-55`. -/
def supersetLightChild (f : BDD m) (ls le : Nat) : Except Fault (BDD m) := roundAny f ls le false false
/-- `subset_heavy_child`, `/repo/src/approximation_operators/approximation_operators.cpp:57-62`. -/
def subsetHeavyChild (f : BDD m) (ls le : Nat) : Except Fault (BDD m) := roundAny f ls le true true

/-- `round_bdd`, `/repo/src/approximation_operators/approximation_operators.cpp:64-70`. -/
def roundBdd (f : BDD m) (level : Nat) : Except Fault (BDD m) := do
  let r ← roundRec level (countMinterms f) f.edge.n f.wf f.edge.neg []
  .ok r.1

/-- `round_best`, `/repo/src/approximation_operators/approximation_operators.cpp:72-81`. -/
def roundBest (f : BDD m) (ls le : Nat) : Except Fault (BDD m) := do
  let r ← roundBestRec ls le (countMinterms f) f.edge.n f.wf f.edge.neg []
  .ok r.1

/-- `round_up`, `/repo/src/approximation_operators/approximation_operators.cpp:83-92`. -/
def roundUp (f : BDD m) (ls le : Nat) : Except Fault (BDD m) := do
  let r ← removeChildrenRec ls le (countSolutions f) false false f.edge.n f.wf f.edge.neg []
  .ok r.1

/-- `round_down`, `/repo/src/approximation_operators/approximation_operators.cpp:94-103`. -/
def roundDown (f : BDD m) (ls le : Nat) : Except Fault (BDD m) := do
  let r ← removeChildrenRec ls le (countSolutions f) false true f.edge.n f.wf f.edge.neg []
  .ok r.1

end Verif

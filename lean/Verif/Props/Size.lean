import Verif.Proofs.Size
import Verif.Proofs.Support

/-!
# C79: how operators change the number of nodes

`apply_operator` on a vector of functions, `/repo/src/minimization/bucket_minimization.cpp:193-222`.
-/

namespace Verif

variable {m : Mgr}

/-! ## C79 -/

/-- Cofactors never add nodes. -/
theorem C79_cofactor_shrinks (f r : List (BDD m)) (j k : Nat)
    (h : applyOperatorAll .positiveCofactor j k f = .ok r ∨
      applyOperatorAll .negativeCofactor j k f = .ok r) : nodeCount r ≤ nodeCount f := by
  obtain ⟨val, rfl⟩ := applyOperatorAll_cofactor f r j k h
  by_cases hf : f = []
  · subst hf; rfl
  · obtain ⟨D, h1, -, -, h2⟩ := cofactor_nodeCount hf j val
    rw [nodeCount_eq hf]
    have := Finset.card_le_card h1
    omega

/-- They remove at least one if some function depends on the variable. -/
theorem C79_cofactor_shrinks_strictly (f r : List (BDD m)) (j k : Nat)
    (h : applyOperatorAll .positiveCofactor j k f = .ok r ∨
      applyOperatorAll .negativeCofactor j k f = .ok r)
    (hj : ∃ b ∈ f, ∃ x, b.eval (Function.update x j true) ≠ b.eval (Function.update x j false)) :
    nodeCount r < nodeCount f := by
  obtain ⟨val, rfl⟩ := applyOperatorAll_cofactor f r j k h
  obtain ⟨b, hb, hj⟩ := hj
  have hf : f ≠ [] := List.ne_nil_of_mem hb
  obtain ⟨D, h1, -, h3, h2⟩ := cofactor_nodeCount hf j val
  obtain ⟨t, c, e, hu⟩ := subs_of_var (d := b.edge.n) (v := j)
    (by simpa [BDD.supportIndices] using BDD.mem_supportIndices.mpr hj)
  have hu' : DD.node j t c e ∈ inner f := mem_inner.mpr ⟨by simp, b, hb, hu⟩
  have hss : D ⊂ inner f := Finset.ssubset_iff_of_subset h1 |>.mpr
    ⟨_, hu', fun hd => h3 _ hd t c e rfl⟩
  have := Finset.card_lt_card hss
  rw [nodeCount_eq hf]
  omega

/-- Whatever the operator and the levels, less than three times as many nodes. -/
theorem C79_growth_bound (f r : List (BDD m)) (op : Operator) (j k : Nat) (hf : f ≠ [])
    (h : applyOperatorAll op j k f = .ok r) : nodeCount r + 2 ≤ 3 * nodeCount f := by
  have hp : 1 ≤ nodeCount f := by rw [nodeCount_eq hf]; omega
  rcases applyOperatorAll_cases op j k f r h with hc | ⟨S, Φ, hΦ, -, hr⟩
  · have := C79_cofactor_shrinks f r j k hc
    omega
  · have := (hΦ.nodeCount_le hr).1
    omega

/-- Less than twice as many nodes while no variable has been moved in the order. -/
theorem C79_growth_bound_ordered (hm : m.Mono) (f r : List (BDD m)) (op : Operator) (j k : Nat)
    (hf : f ≠ []) (h : applyOperatorAll op j k f = .ok r) : nodeCount r < 2 * nodeCount f := by
  have hp : 1 ≤ nodeCount f := by rw [nodeCount_eq hf]; omega
  rcases applyOperatorAll_cases op j k f r h with hc | ⟨S, Φ, hΦ, hS, hr⟩
  · have := C79_cofactor_shrinks f r j k hc
    omega
  · have := (hΦ.nodeCount_le hr).2 (hS hm)
    omega

/-- `x0 ? g : !g` -/
def doubled (g : BDD Mgr.id) : List (BDD Mgr.id) := [BDD.ite (.var 0) g g.not]

/-- None of the variables 1, 2, 3 -/
def noneOf : BDD Mgr.id := ((BDD.var 1).or ((BDD.var 2).or (.var 3))).not

/-- A function of four variables -/
def tieRound : BDD Mgr.id := (BDD.var 0).not.and ((BDD.var 1).not.and ((BDD.var 2).or (.var 3)))

/-- A function of six variables -/
def tieBest : BDD Mgr.id :=
  let p := (BDD.var 4).xor (.var 5)
  let leaf (i : Nat) : BDD Mgr.id :=
    if i ∈ [0, 3, 12, 15] then .one else if i ∈ [1, 5, 9, 13] then p else if i ∈ [6, 14] then p.not else .zero
  let sel (v : Nat) (a b : BDD Mgr.id) := BDD.ite (.var v) a b
  let l3 (i : Nat) := sel 3 (leaf (i + 8)) (leaf i)
  let l2 (i : Nat) := sel 2 (l3 (i + 4)) (l3 i)
  let l1 (i : Nat) := sel 1 (l2 (i + 2)) (l2 i)
  sel 0 (l1 1) (l1 0)

/-- The other operators do not always make the BDDs smaller: each of them can add nodes. -/
theorem C79_operators_can_grow (op : Operator) (h1 : op ≠ .positiveCofactor)
    (h2 : op ≠ .negativeCofactor) : ∃ (f r : List (BDD Mgr.id)) (j k : Nat),
    applyOperatorAll op j k f = .ok r ∧ nodeCount f < nodeCount r := by
  have key : ∀ (f : List (BDD Mgr.id)) (j k : Nat),
      ((applyOperatorAll op j k f).toOption.any fun r => nodeCount f < nodeCount r) = true →
      ∃ (f r : List (BDD Mgr.id)) (j k : Nat), applyOperatorAll op j k f = .ok r ∧
        nodeCount f < nodeCount r := by
    intro f j k h
    cases hr : applyOperatorAll op j k f with
    | error e => rw [hr] at h; cases h
    | ok r =>
      rw [hr] at h
      exact ⟨f, r, j, k, hr, by simpa [Except.toOption] using h⟩
  cases op with
  | positiveCofactor => exact absurd rfl h1
  | negativeCofactor => exact absurd rfl h2
  | subsetLight => exact key (doubled noneOf) 1 1 (by decide +kernel)
  | supersetHeavy => exact key (doubled noneOf) 1 1 (by decide +kernel)
  | subsetHeavy => exact key (doubled ((BDD.var 3).not.and ((BDD.var 1).and (.var 2)).not)) 1 1 (by decide +kernel)
  | supersetLight => exact key (doubled ((BDD.var 3).not.and ((BDD.var 1).and (.var 2)).not)) 1 1 (by decide +kernel)
  | roundBest => exact key [tieBest, tieBest.not] 4 4 (by decide +kernel)
  | round => exact key [tieRound, tieRound.not] 3 3 (by decide +kernel)

/-- Seven of at most eight nodes allowed. -/
example : nodeCount (doubled noneOf) = 5 ∧
    ((applyOperatorAll .subsetLight 2 2 (doubled noneOf)).toOption.map nodeCount) = some 7 := by
  decide +kernel

example : Mgr.id.Mono ∧ doubled noneOf ≠ [] := ⟨fun _ _ h => h, by simp [doubled]⟩

/-- A cofactor of a function of four variables: five nodes become four. -/
example : nodeCount (doubled noneOf) = 5 ∧
    ((applyOperatorAll .negativeCofactor 2 2 (doubled noneOf)).toOption.map nodeCount) = some 4 := by
  decide +kernel

end Verif

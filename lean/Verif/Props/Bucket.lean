import Verif.Proofs.Bucket
import Verif.Model.Metrics

/-!
# C55 – C61: bucket minimisation

Grid sizes are `std::size_t`; the bucket vector exists only if the product of the grid sizes fits.
-/

namespace Verif

variable {m : Mgr}

/-! ## C55 multi dimensional indices -/

theorem C55_reduce_then_create (idx bounds : List Nat) (h : InBox idx bounds)
    (hprod : bounds.prod ≤ 2 ^ 64) :
    reduceIndex idx bounds = .ok (rank bounds idx) ∧ rank bounds idx < bounds.prod ∧
    createIndex (rank bounds idx) bounds = .ok idx := by
  refine ⟨reduceIndex_eq h hprod, rank_lt h, ?_⟩
  rw [createIndex_eq h.pos, unrank_rank h]

theorem C55_create_then_reduce (k : Nat) (bounds : List Nat) (hk : k < bounds.prod)
    (hprod : bounds.prod ≤ 2 ^ 64) :
    ∃ idx, createIndex k bounds = .ok idx ∧ InBox idx bounds ∧ reduceIndex idx bounds = .ok k := by
  have hpos : ∀ b ∈ bounds, b ≠ 0 := by
    intro b hb hz
    rw [List.prod_eq_zero (hz ▸ hb)] at hk
    omega
  refine ⟨unrank bounds k, createIndex_eq hpos k, unrank_inBox hpos k, ?_⟩
  rw [reduceIndex_eq (unrank_inBox hpos k) hprod, rank_unrank hk]

/-- The order of positions refines the componentwise order of grid points. -/
theorem C55_reduce_monotone (i j bounds : List Nat) (hi : InBox i bounds) (hj : InBox j bounds)
    (hij : LeIdx i j) (hprod : bounds.prod ≤ 2 ^ 64) :
    ∃ a b, reduceIndex i bounds = .ok a ∧ reduceIndex j bounds = .ok b ∧ a ≤ b :=
  ⟨_, _, reduceIndex_eq hi hprod, reduceIndex_eq hj hprod, rank_mono hij⟩

/-- A bound of 0 is a division by zero. -/
theorem C55_zero_bound (k : Nat) (bounds : List Nat) (h : 0 ∈ bounds) :
    createIndex k bounds = .error .ub := createIndex_zero h k

/-- Beyond `2^64` grid points positions wrap and different points share one. -/
theorem C55_wraps : ∃ i j bounds : List Nat, InBox i bounds ∧ InBox j bounds ∧ i ≠ j ∧
    reduceIndex i bounds = reduceIndex j bounds := by
  refine ⟨[2 ^ 32, 0], [0, 0], [2 ^ 33, 2 ^ 32], .cons (by norm_num) (.cons (by norm_num) .nil),
    .cons (by norm_num) (.cons (by norm_num) .nil), by simp, by decide +kernel⟩

example : InBox [1, 0, 3] [2, 3, 4] ∧ ([2, 3, 4] : List Nat).prod ≤ 2 ^ 64 ∧
    reduceIndex [1, 0, 3] [2, 3, 4] = .ok 15 ∧ createIndex 15 [2, 3, 4] = .ok [1, 0, 3] :=
  ⟨.cons (by omega) (.cons (by omega) (.cons (by omega) .nil)), by decide, by decide +kernel,
    by decide +kernel⟩

/-! ## C56 termination

The hypotheses on operators and metrics only say that the model's own budget fault does not come
from inside them. -/

/-- The loop ends for all operators and metrics, whatever they do: within one round per node of the
initial buckets and one more, the work list is empty (or the call has ended otherwise before). -/
theorem C56_terminates (f : List (BDD m)) (ms : List (MetricDim m)) (ops : List (OpFun m))
    (populate : Bool) (hop : ∀ op ∈ ops, ∀ g, op g ≠ .error .fuel)
    (hm : ∀ d ∈ ms, ∀ g, d.metric f g ≠ .error .fuel) (fuel : Nat)
    (hfuel : (ms.map (·.gridSize)).prod * nodeCount f + 1 ≤ fuel) :
    bucketGreedyMinimize fuel f ms ops populate ≠ .error .fuel := by
  intro h
  unfold bucketGreedyMinimize at h
  split at h
  · cases h
  · rcases bind_fuel h with h | ⟨first, -, h⟩
    · exact createIndex_ne_fuel _ _ h
    · refine searchLoop_ne_fuel hop hm ?_ h
      exact le_trans (initial_work (totalBuckets_le _) first) hfuel

/-- The call returns when the operators are defined on all functions that can come up, the grid sizes
are positive, and the metrics are defined with `grid_size * error / bound` in the range of
`std::size_t`; the result does not depend on the budget. -/
theorem C56_returns (f : List (BDD m)) (ms : List (MetricDim m)) (ops : List (OpFun m))
    (populate : Bool) (hne : ms ≠ []) (hpos : ∀ d ∈ ms, 0 < d.gridSize)
    (hprod : (ms.map (·.gridSize)).prod < 2 ^ 64)
    (hop : ∀ g, Reach ops f g → ∀ op ∈ ops, ∃ h, op g = .ok h)
    (hm : ∀ g, Reach ops f g → ∀ d ∈ ms, d.bound ≠ 0 ∧ ∃ v, d.metric f g = .ok v ∧
      0 ≤ d.gridSize * v / d.bound ∧ d.gridSize * v / d.bound < 2 ^ 64) :
    ∃ r, ∀ fuel, (ms.map (·.gridSize)).prod * nodeCount f + 1 ≤ fuel →
      bucketGreedyMinimize fuel f ms ops populate = .ok r := by
  have hpos' : ∀ b ∈ ms.map (·.gridSize), b ≠ 0 := by
    intro b hb
    obtain ⟨d, hd, rfl⟩ := List.mem_map.mp hb
    exact Nat.pos_iff_ne_zero.mp (hpos d hd)
  have hl : ms.length ≠ 0 := fun h => hne (List.length_eq_zero_iff.mp h)
  have hstart : ∀ fuel, bucketGreedyMinimize fuel f ms ops populate =
      searchLoop f ms ops populate fuel (List.replicate (totalBuckets (ms.map (·.gridSize)))
        (⟨f, nodeCount f, List.replicate ms.length 0, List.replicate ops.length true, true⟩ : Bucket m))
        (setInsert (unrank (ms.map (·.gridSize)) 0) []) := by
    intro fuel
    unfold bucketGreedyMinimize
    rw [if_neg hl]
    dsimp only
    rw [createIndex_eq hpos']
    rfl
  obtain ⟨r, hr⟩ := searchLoop_total (populate := populate) hpos' hprod ⟨hop, hm⟩
    (fuel := (ms.map (·.gridSize)).prod * nodeCount f + 1)
    (test := setInsert (unrank (ms.map (·.gridSize)) 0) [])
    (initial_inv hpos' hprod) (fun b hb => by rw [List.eq_of_mem_replicate hb]; simp)
    (fun v hv => by
      rcases mem_setInsert.mp hv with rfl | hv
      · exact unrank_inBox hpos' 0
      · simp at hv)
    (initial_work (totalBuckets_le _) _)
  exact ⟨r, fun fuel hf => by rw [hstart]; exact searchLoop_mono hr hf⟩

theorem C56_no_metric (fuel : Nat) (f : List (BDD m)) (ops : List (OpFun m)) (populate : Bool) :
    bucketGreedyMinimize fuel f [] ops populate = .error .invalidArgument := rfl

/-- A grid size of 0 is undefined behaviour. -/
theorem C56_zero_grid (fuel : Nat) (f : List (BDD m)) (ms : List (MetricDim m)) (ops : List (OpFun m))
    (populate : Bool) (d : MetricDim m) (hd : d ∈ ms) (h0 : d.gridSize = 0) :
    bucketGreedyMinimize fuel f ms ops populate = .error .ub := by
  unfold bucketGreedyMinimize
  rw [if_neg (fun h => by rw [List.length_eq_zero_iff.mp h] at hd; simp at hd)]
  dsimp only
  rw [createIndex_zero (by rw [← h0]; exact List.mem_map_of_mem hd)]
  rfl

/-- A search to run the theorems on: two bits over four variables, … -/
def exampleFunction : List (BDD .id) :=
  [((BDD.var 0).and (.var 1)).or ((BDD.var 2).and (.var 3)), (BDD.var 0).xor (.var 3)]

/-- … a grid of 4 by 2 for error rate (up to 1) and worst case error (up to 4), … -/
def exampleMetrics : List (MetricDim .id) :=
  [⟨4, errorRate, 1⟩, ⟨2, fun f g => do let v ← worstCaseError .baseTwo f g; .ok v, 4⟩]

/-- … and two operators at every level of every bit. -/
def exampleOps : List (OpFun .id) := generateSingleBddOperators exampleFunction [.subsetLight, .round]

/-- The search runs through; sizes, emptiness and metric values of the buckets (C56 – C60). -/
example : (bucketGreedyMinimize 49 exampleFunction exampleMetrics exampleOps true).toOption.map
    (·.map (fun b => (b.bddSize, b.isEmpty, b.metricValues))) = some
    [(5, false, [3 / 16, 1]), (5, false, [3 / 16, 1]), (3, false, [7 / 16, 1]), (3, false, [7 / 16, 1]),
    (3, false, [7 / 16, 1]), (1, false, [11 / 16, 3]), (3, false, [7 / 16, 1]), (1, false, [11 / 16, 3])] ∧
    (exampleMetrics.map (·.gridSize)).prod * nodeCount exampleFunction + 1 = 49 := by decide +kernel

/-- The same without populating all buckets. -/
example : (bucketGreedyMinimize 49 exampleFunction exampleMetrics exampleOps false).toOption.map
    (·.map (fun b => (b.bddSize, b.isEmpty, b.metricValues))) = some
    [(5, false, [3 / 16, 1]), (6, true, [0, 0]), (3, false, [7 / 16, 1]), (6, true, [0, 0]),
    (6, true, [0, 0]), (1, false, [11 / 16, 3]), (6, true, [0, 0]), (6, true, [0, 0])] := by decide +kernel

/-- The hypotheses of `C56_returns` are met by a metric with values in range and generated operators. -/
example : ∃ r, ∀ fuel, 4 * nodeCount exampleFunction + 1 ≤ fuel →
    bucketGreedyMinimize fuel exampleFunction [⟨4, fun f g => .ok (if f = g then 0 else 1), 2⟩]
      (generateMultiBddOperators exampleFunction [.positiveCofactor]) false = .ok r := by
  refine C56_returns exampleFunction [⟨4, fun f g => .ok (if f = g then 0 else 1), 2⟩]
    (generateMultiBddOperators exampleFunction [.positiveCofactor]) false (by simp) (by simp) (by simp)
    (fun g _ op hop => ?_) (fun g _ d hd => ?_)
  · simp only [generateMultiBddOperators, List.mem_flatMap, List.map_cons, List.map_nil,
      List.mem_singleton] at hop
    obtain ⟨j, -, rfl⟩ := hop
    exact let ⟨g', h1, _⟩ := applyOperatorAll_spec (m := .id) .positiveCofactor j j g; ⟨g', h1⟩
  · rw [List.mem_singleton] at hd
    subst hd
    exact ⟨by norm_num, _, rfl, by split <;> norm_num, by split <;> norm_num⟩

/-! ## C57 error bounds -/

theorem C57_error_bounds (fuel : Nat) (f : List (BDD m)) (ms : List (MetricDim m))
    (ops : List (OpFun m)) (populate : Bool) (r : List (Bucket m))
    (hprod : (ms.map (·.gridSize)).prod < 2 ^ 64) (hbound : ∀ d ∈ ms, 0 < d.bound)
    (h : bucketGreedyMinimize fuel f ms ops populate = .ok r) :
    r.length = (ms.map (·.gridSize)).prod ∧
    ∀ idx b, InBox idx (ms.map (·.gridSize)) → r[rank (ms.map (·.gridSize)) idx]? = some b →
      b.isEmpty = false → b.metricValues.length = ms.length ∧
      ∀ (k : Nat) (d : MetricDim m) (i : Nat) (v : ℚ), ms[k]? = some d → idx[k]? = some i → b.metricValues[k]? = some v →
        d.metric f b.function = .ok v ∧ v < d.bound * (i + 1) / d.gridSize ∧ v < d.bound := by
  obtain ⟨hinv, hpos⟩ := bucketGreedyMinimize_inv hprod h
  refine ⟨hinv.len, fun idx b hbox hb hne => ?_⟩
  obtain ⟨-, idx', hmet, hle⟩ := (hinv.good _ _ hb).full hne
  rw [unrank_rank hbox] at hle
  refine ⟨hmet.values_length, fun k d i v hd hi hv => ?_⟩
  have hbd := hbound d (List.mem_of_getElem? hd)
  obtain ⟨h1, h2⟩ := hmet.get hle hd hi hv hbd
  refine ⟨h1, h2, lt_of_lt_of_le h2 ?_⟩
  have hk1 : k < idx.length := lt_of_getElem? hi
  have hk2 : k < (ms.map (·.gridSize)).length := by rw [← List.Forall₂.length_eq hbox]; exact hk1
  have hlt := (List.forall₂_iff_get.mp hbox).2 k hk1 hk2
  simp only [List.get_eq_getElem, List.getElem_map] at hlt
  rw [List.getElem?_eq_getElem hk1, Option.some.injEq] at hi
  rw [List.getElem?_eq_getElem (by simpa using hk2), Option.some.injEq] at hd
  rw [hi, hd] at hlt
  have hg : (0 : ℚ) < d.gridSize := by exact_mod_cast (show 0 < d.gridSize by omega)
  rw [div_le_iff₀ hg]
  apply mul_le_mul_of_nonneg_left _ (le_of_lt hbd)
  exact_mod_cast hlt

/-! ## C58 sizes -/

theorem C58_sizes (fuel : Nat) (f : List (BDD m)) (ms : List (MetricDim m))
    (ops : List (OpFun m)) (populate : Bool) (r : List (Bucket m))
    (hprod : (ms.map (·.gridSize)).prod < 2 ^ 64)
    (h : bucketGreedyMinimize fuel f ms ops populate = .ok r) :
    ∀ b ∈ r, b.bddSize = nodeCount b.function ∧ b.bddSize ≤ nodeCount f ∧
      (b.isEmpty = false → b.bddSize < nodeCount f) ∧ (b.isEmpty = true → b.function = f) := by
  intro b hb
  obtain ⟨i, hi⟩ := List.mem_iff_getElem?.mp hb
  have := (bucketGreedyMinimize_inv hprod h).1.good i b hi
  exact ⟨this.size, this.le, fun h => (this.full h).1, this.empty⟩

/-! ## C59 monotone front -/

theorem C59_front (fuel : Nat) (f : List (BDD m)) (ms : List (MetricDim m))
    (ops : List (OpFun m)) (r : List (Bucket m)) (hprod : (ms.map (·.gridSize)).prod < 2 ^ 64)
    (h : bucketGreedyMinimize fuel f ms ops true = .ok r) (i j : List Nat)
    (hi : InBox i (ms.map (·.gridSize))) (hj : InBox j (ms.map (·.gridSize))) (hij : LeIdx i j) :
    ∃ b c, r[rank (ms.map (·.gridSize)) i]? = some b ∧ r[rank (ms.map (·.gridSize)) j]? = some c ∧
      c.bddSize ≤ b.bddSize := by
  obtain ⟨hinv, hpos⟩ := bucketGreedyMinimize_inv hprod h
  have h1 := rank_lt hi
  have h2 := rank_lt hj
  rw [← hinv.len] at h1 h2
  refine ⟨_, _, List.getElem?_eq_getElem h1, List.getElem?_eq_getElem h2, ?_⟩
  exact hinv.front rfl _ _ _ _ (List.getElem?_eq_getElem h1) (List.getElem?_eq_getElem h2)
    (by rwa [unrank_rank hi, unrank_rank hj])

/-! ## C60 reachability -/

theorem C60_reachable (fuel : Nat) (f : List (BDD m)) (ms : List (MetricDim m))
    (ops : List (OpFun m)) (populate : Bool) (r : List (Bucket m))
    (hprod : (ms.map (·.gridSize)).prod < 2 ^ 64)
    (h : bucketGreedyMinimize fuel f ms ops populate = .ok r) :
    ∀ b ∈ r, Reach ops f b.function := by
  intro b hb
  obtain ⟨i, hi⟩ := List.mem_iff_getElem?.mp hb
  exact ((bucketGreedyMinimize_inv hprod h).1.good i b hi).reach

/-! ## C61 operators -/

theorem C61_cofactor (b : BDD m) (j k : Nat) :
    ∃ p n, applyOperator b .positiveCofactor j k = .ok p ∧ applyOperator b .negativeCofactor j k = .ok n ∧
      ∀ x, p.eval x = b.eval (Function.update x j true) ∧ n.eval x = b.eval (Function.update x j false) :=
  ⟨_, _, rfl, rfl, fun x => ⟨cofactor_eval b j true x, cofactor_eval b j false x⟩⟩

theorem C61_apply_operator (b : BDD m) (j k : Nat) :
    applyOperator b .subsetLight j k = subsetLightChild b j k ∧
    applyOperator b .subsetHeavy j k = subsetHeavyChild b j k ∧
    applyOperator b .supersetLight j k = supersetLightChild b j k ∧
    applyOperator b .supersetHeavy j k = supersetHeavyChild b j k ∧
    applyOperator b .roundBest j k = roundBest b j k ∧ applyOperator b .round j k = roundBdd b j ∧
    ∀ op, ∃ r, applyOperator b op j k = .ok r :=
  ⟨rfl, rfl, rfl, rfl, rfl, rfl, fun op => applyOperator_total b op j k⟩

theorem C61_single (f : List (BDD m)) (ops : List Operator) :
    (generateSingleBddOperators f ops).length = f.length * terminalLevel [f] * ops.length ∧
    ∀ i j o op, i < f.length → j < terminalLevel [f] → ops[o]? = some op →
      ∃ F, (generateSingleBddOperators f ops)[(i * terminalLevel [f] + j) * ops.length + o]? = some F ∧
        ∀ g b, g[i]? = some b → ∃ g' b', applyOperator b op j j = .ok b' ∧ F g = .ok g' ∧
          g'.length = g.length ∧ g'[i]? = some b' ∧ ∀ k, k ≠ i → g'[k]? = g[k]? := by
  have hin : ∀ i, ((List.range (terminalLevel [f])).flatMap fun j =>
      ops.map fun op => (applyOperatorAt i j op : OpFun m)).length = terminalLevel [f] * ops.length :=
    fun i => length_flatMap_range _ _ _ (fun j => by simp)
  constructor
  · unfold generateSingleBddOperators
    rw [length_flatMap_range _ _ _ hin, mul_assoc]
  · intro i j o op hi hj ho
    have ho' := lt_of_getElem? ho
    refine ⟨applyOperatorAt i j op, ?_, fun g b hb => ?_⟩
    · unfold generateSingleBddOperators
      rw [show (i * terminalLevel [f] + j) * ops.length + o =
        i * (terminalLevel [f] * ops.length) + (j * ops.length + o) by ring]
      rw [flatMap_range_getElem? _ _ _ hin hi (by
        calc j * ops.length + o < j * ops.length + ops.length := by omega
          _ = (j + 1) * ops.length := by ring
          _ ≤ terminalLevel [f] * ops.length := Nat.mul_le_mul_right _ hj)]
      rw [flatMap_range_getElem? _ _ _ (fun j => by simp) hj ho', List.getElem?_map, ho]
      rfl
    · obtain ⟨b', h1, h2⟩ := applyOperatorAt_spec j op hb
      exact ⟨g.set i b', b', h1, h2, by simp, List.getElem?_set_self (lt_of_getElem? hb),
        fun k hk => List.getElem?_set_ne (fun e => hk e.symm)⟩

theorem C61_multi (f : List (BDD m)) (ops : List Operator) :
    (generateMultiBddOperators f ops).length = terminalLevel [f] * ops.length ∧
    ∀ j o op, j < terminalLevel [f] → ops[o]? = some op →
      ∃ F, (generateMultiBddOperators f ops)[j * ops.length + o]? = some F ∧
        ∀ g, ∃ g', F g = .ok g' ∧ List.Forall₂ (fun b b' => applyOperator b op j j = .ok b') g g' := by
  constructor
  · unfold generateMultiBddOperators
    exact length_flatMap_range _ _ _ (fun j => by rw [List.length_map])
  · intro j o op hj ho
    refine ⟨applyOperatorAll op j j, ?_, fun g => applyOperatorAll_spec op j j g⟩
    unfold generateMultiBddOperators
    rw [flatMap_range_getElem? _ _ _ (fun j => by simp) hj (lt_of_getElem? ho), List.getElem?_map, ho]
    rfl

/-- `generate_random_operators` draws operator and level when the list is made (not on each call, and
no bit, as its documentation says), and every entry changes all bits. -/
theorem C61_random (f : List (BDD m)) (ops : List Operator) (rs : Nat → Nat) (n k : Nat)
    (hops : ops ≠ []) (hf : 0 < terminalLevel [f]) :
    ∃ l, generateRandomOperators f ops rs n k = .ok l ∧ l.length = n ∧
      ∀ F ∈ l, ∃ op ∈ ops, ∃ j < terminalLevel [f], ∀ g, ∃ g', F g = .ok g' ∧
        List.Forall₂ (fun b b' => applyOperator b op j j = .ok b') g g' := by
  have hl : ops.length ≠ 0 := fun h => hops (List.length_eq_zero_iff.mp h)
  induction n generalizing k with
  | zero => exact ⟨[], rfl, rfl, by simp⟩
  | succ n ih =>
    obtain ⟨l, h1, h2, h3⟩ := ih (k + 2)
    have hlt : rs k % ops.length < ops.length := Nat.mod_lt _ (Nat.pos_of_ne_zero hl)
    refine ⟨applyOperatorAll ops[rs k % ops.length] (rs (k + 1) % terminalLevel [f])
      (rs (k + 1) % terminalLevel [f]) :: l, ?_, by simp [h2], ?_⟩
    · unfold generateRandomOperators
      rw [if_neg hl, vget_ok_iff.mpr (List.getElem?_eq_getElem hlt)]
      show (if terminalLevel [f] = 0 then _ else _) = _
      rw [if_neg (by omega), h1]
      rfl
    · intro F hF
      rcases List.mem_cons.mp hF with rfl | hF
      · exact ⟨_, List.getElem_mem hlt, _, Nat.mod_lt _ hf, fun g => applyOperatorAll_spec _ _ _ g⟩
      · exact h3 F hF

/-- Without operators, or for a function without bits, the modulo by zero is undefined. -/
theorem C61_random_ub (f : List (BDD m)) (ops : List Operator) (rs : Nat → Nat) (n k : Nat)
    (h : ops = [] ∨ f = []) : generateRandomOperators f ops rs (n + 1) k = .error .ub := by
  unfold generateRandomOperators
  by_cases hops : ops.length = 0
  · rw [if_pos hops]
  · rw [if_neg hops]
    have hf : f = [] := h.resolve_left (fun h => hops (by simp [h]))
    have hlt : rs k % ops.length < ops.length := Nat.mod_lt _ (Nat.pos_of_ne_zero hops)
    rw [vget_ok_iff.mpr (List.getElem?_eq_getElem hlt), hf]
    rfl

example : (generateSingleBddOperators exampleFunction [.subsetLight, .round]).length = 2 * 4 * 2 ∧
    (generateMultiBddOperators exampleFunction [.subsetLight, .round]).length = 4 * 2 := by decide +kernel

example : (generateRandomOperators exampleFunction [.round] (fun k => k + 7) 3 0).toOption.map
    (·.length) = some 3 := by decide +kernel

end Verif

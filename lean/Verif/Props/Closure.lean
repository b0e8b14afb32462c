import Verif.Proofs.Closure
import Verif.Props.Bucket

/-!
# C89: at the end of the bucket search nothing is left to try
-/

namespace Verif

variable {m : Mgr}

/-- `g` offers nothing new: an error is not below its bound, or some bucket whose coordinates are not
above those of the errors of `g` holds a function that is not larger. -/
def Settled (f : List (BDD m)) (ms : List (MetricDim m)) (r : List (Bucket m)) (g : List (BDD m)) : Prop :=
  (∃ d ∈ ms, ∃ v, d.metric f g = .ok v ∧ d.bound ≤ v) ∨
  ∃ j c, InBox j (ms.map (·.gridSize)) ∧ r[rank (ms.map (·.gridSize)) j]? = some c ∧
    nodeCount c.function ≤ nodeCount g ∧
    ∀ (k : Nat) (d : MetricDim m) (i : Nat), ms[k]? = some d → j[k]? = some i →
      i = 0 ∨ ∃ v, d.metric f g = .ok v ∧ d.bound * i / d.gridSize ≤ v

theorem settled_of {f : List (BDD m)} {ms : List (MetricDim m)} {ops : List (OpFun m)} {populate : Bool}
    {r : List (Bucket m)} {g : List (BDD m)} (hinv : SearchInv f ms ops populate r)
    (h : overAny f ms g ∨ Covered f ms r g) : Settled f ms r g := by
  rcases h with h | ⟨j, c, hj, hc, hle⟩
  · exact .inl h
  · refine .inr ⟨j, c, forall₂_coordLe_inBox hj, hc, by rw [← (hinv.good _ _ hc).size]; exact hle,
      fun k d i hd hi => ?_⟩
    have hk1 := lt_of_getElem? hd
    have hk2 := lt_of_getElem? hi
    have := (List.forall₂_iff_get.mp hj).2 k hk1 hk2
    rw [List.getElem?_eq_getElem hk1, Option.some.injEq] at hd
    rw [List.getElem?_eq_getElem hk2, Option.some.injEq] at hi
    simp only [List.get_eq_getElem, hd, hi] at this
    exact this.2

/-- Every operator has been tried on `f`, and every operator a filled bucket may still use has been
tried on its function.  What came out of it is settled (for a bucket: unless it is no smaller). -/
theorem C89_closed (fuel : Nat) (f : List (BDD m)) (ms : List (MetricDim m))
    (ops : List (OpFun m)) (populate : Bool) (r : List (Bucket m))
    (hprod : (ms.map (·.gridSize)).prod < 2 ^ 64) (hbound : ∀ d ∈ ms, 0 < d.bound)
    (h : bucketGreedyMinimize fuel f ms ops populate = .ok r) :
    (∀ op ∈ ops, ∃ g, op f = .ok g ∧ Settled f ms r g) ∧
    ∀ b ∈ r, b.isEmpty = false → ∀ (o : Nat) (op : OpFun m), ops[o]? = some op → b.possibleOps[o]? = some true →
      ∃ g, op b.function = .ok g ∧ (nodeCount g < nodeCount b.function → Settled f ms r g) := by
  obtain ⟨hinv, -⟩ := bucketGreedyMinimize_inv hprod h
  obtain ⟨h1, h2⟩ := bucketGreedyMinimize_closed hprod hbound h
  refine ⟨fun op hop => ?_, fun b hb hne o op ho hp => ?_⟩
  · obtain ⟨g, hg, hs⟩ := h2 op hop
    exact ⟨g, hg, settled_of hinv hs⟩
  · rcases h1 b hb with h | h
    · rw [h] at hne
      cases hne
    · obtain ⟨g, hg, hs⟩ := h o op ho hp
      refine ⟨g, hg, fun hlt => settled_of hinv ?_⟩
      rcases hs with hs | hs
      · obtain ⟨i, hi⟩ := List.mem_iff_getElem?.mp hb
        rw [(hinv.good _ _ hi).size] at hs
        omega
      · exact hs

/-- When all buckets are populated, every bucket whose limits a settled function keeps is at most as
large. -/
theorem settled_front {fuel : Nat} {f : List (BDD m)} {ms : List (MetricDim m)}
    {ops : List (OpFun m)} {r : List (Bucket m)}
    (hprod : (ms.map (·.gridSize)).prod < 2 ^ 64) (hbound : ∀ d ∈ ms, 0 < d.bound)
    (h : bucketGreedyMinimize fuel f ms ops true = .ok r) {g : List (BDD m)} (hs : Settled f ms r g)
    {idx : List Nat} (hbox : InBox idx (ms.map (·.gridSize)))
    (hin : ∀ (k : Nat) (d : MetricDim m) (i : Nat), ms[k]? = some d → idx[k]? = some i →
      ∃ v, d.metric f g = .ok v ∧ v < d.bound * (i + 1) / d.gridSize) :
    ∃ c, r[rank (ms.map (·.gridSize)) idx]? = some c ∧ nodeCount c.function ≤ nodeCount g := by
  obtain ⟨hinv, hpos⟩ := bucketGreedyMinimize_inv hprod h
  have hlen := hbox.length_eq
  rw [List.length_map] at hlen
  have hlt : ∀ (k : Nat) (d : MetricDim m) (i : Nat), ms[k]? = some d → idx[k]? = some i → i < d.gridSize := by
    intro k d i hd hi
    have hk1 := lt_of_getElem? hi
    have hk2 : k < (ms.map (·.gridSize)).length := by rw [List.length_map, ← hlen]; exact hk1
    have := (List.forall₂_iff_get.mp hbox).2 k hk1 hk2
    rw [List.getElem?_eq_getElem hk1, Option.some.injEq] at hi
    rw [List.getElem?_eq_getElem (by simpa using hk2), Option.some.injEq] at hd
    simpa [hd, hi] using this
  rcases hs with ⟨d, hd, v, hv, hle⟩ | ⟨j, c, hj, hc, hle, hco⟩
  · exfalso
    obtain ⟨k, hk⟩ := List.mem_iff_getElem?.mp hd
    have hki : k < idx.length := by rw [hlen]; exact lt_of_getElem? hk
    obtain ⟨v', hv', hl⟩ := hin k d _ hk (List.getElem?_eq_getElem hki)
    have hi := hlt k d _ hk (List.getElem?_eq_getElem hki)
    rw [hv] at hv'
    cases hv'
    have hg : (0 : ℚ) < d.gridSize := by exact_mod_cast (show 0 < d.gridSize by omega)
    rw [lt_div_iff₀ hg] at hl
    have h1 : ((idx[k] : ℚ) + 1) ≤ d.gridSize := by exact_mod_cast hi
    have h2 := mul_le_mul_of_nonneg_left h1 (le_of_lt (hbound d hd))
    have h3 := mul_le_mul_of_nonneg_right hle (le_of_lt hg)
    linarith
  · have hle' : LeIdx j idx := by
      have hl2 := hj.length_eq
      rw [List.length_map] at hl2
      refine List.forall₂_iff_get.mpr ⟨by omega, fun k hk1 hk2 => ?_⟩
      have hkm : k < ms.length := by omega
      have hd := List.getElem?_eq_getElem hkm
      rcases hco k _ _ hd (List.getElem?_eq_getElem hk1) with h0 | ⟨v, hv, hle⟩
      · simp [h0]
      · obtain ⟨v', hv', hl⟩ := hin k _ _ hd (List.getElem?_eq_getElem hk2)
        rw [hv] at hv'
        cases hv'
        have hb := hbound _ (List.mem_of_getElem? hd)
        have hi := hlt k _ _ hd (List.getElem?_eq_getElem hk2)
        have hg : (0 : ℚ) < (ms[k].gridSize : ℚ) := by exact_mod_cast (show 0 < ms[k].gridSize by omega)
        have h1 := lt_of_le_of_lt hle hl
        rw [div_lt_div_iff_of_pos_right hg] at h1
        have h2 := lt_of_mul_lt_mul_left h1 (le_of_lt hb)
        have h3 : j[k] < idx[k] + 1 := by exact_mod_cast h2
        simp only [List.get_eq_getElem]
        omega
    obtain ⟨b, c', h1, h2, h3⟩ := C59_front fuel f ms ops r hprod h j idx hj hbox hle'
    rw [hc] at h1
    cases h1
    refine ⟨c', h2, ?_⟩
    rw [← (hinv.good _ _ h2).size]
    rw [← (hinv.good _ _ hc).size] at hle
    omega

/-- With all buckets populated, the result of an operator on `f`, or of an operator still allowed on
a filled bucket, is at least as large as every bucket whose limits it keeps. -/
theorem C89_front (fuel : Nat) (f : List (BDD m)) (ms : List (MetricDim m))
    (ops : List (OpFun m)) (r : List (Bucket m))
    (hprod : (ms.map (·.gridSize)).prod < 2 ^ 64) (hbound : ∀ d ∈ ms, 0 < d.bound)
    (h : bucketGreedyMinimize fuel f ms ops true = .ok r) (b : Bucket m) (o : Nat) (op : OpFun m)
    (g : List (BDD m)) (ho : ops[o]? = some op)
    (hb : (b.function = f ∨ b ∈ r ∧ b.isEmpty = false ∧ b.possibleOps[o]? = some true ∧
      nodeCount g < nodeCount b.function) ∧ op b.function = .ok g)
    (idx : List Nat) (hbox : InBox idx (ms.map (·.gridSize)))
    (hin : ∀ (k : Nat) (d : MetricDim m) (i : Nat), ms[k]? = some d → idx[k]? = some i →
      ∃ v, d.metric f g = .ok v ∧ v < d.bound * (i + 1) / d.gridSize) :
    ∃ c, r[rank (ms.map (·.gridSize)) idx]? = some c ∧ nodeCount c.function ≤ nodeCount g := by
  obtain ⟨h1, h2⟩ := C89_closed fuel f ms ops true r hprod hbound h
  refine settled_front hprod hbound h ?_ hbox hin
  obtain ⟨hb | ⟨hb, hne, hp, hlt⟩, hg⟩ := hb
  · rw [hb] at hg
    obtain ⟨g', hg', hs⟩ := h1 op (List.mem_of_getElem? ho)
    rw [hg] at hg'
    cases hg'
    exact hs
  · obtain ⟨g', hg', hs⟩ := h2 b hb hne o op ho hp
    rw [hg] at hg'
    cases hg'
    exact hs hlt

/-- So each filled bucket is locally optimal: no operator it may still use leads to a smaller function
within its limits. -/
theorem C89_local_optimum (fuel : Nat) (f : List (BDD m)) (ms : List (MetricDim m))
    (ops : List (OpFun m)) (r : List (Bucket m))
    (hprod : (ms.map (·.gridSize)).prod < 2 ^ 64) (hbound : ∀ d ∈ ms, 0 < d.bound)
    (h : bucketGreedyMinimize fuel f ms ops true = .ok r) (idx : List Nat)
    (hbox : InBox idx (ms.map (·.gridSize))) (b : Bucket m)
    (hb : r[rank (ms.map (·.gridSize)) idx]? = some b) (hne : b.isEmpty = false)
    (o : Nat) (op : OpFun m) (ho : ops[o]? = some op) (hp : b.possibleOps[o]? = some true) :
    ∃ g, op b.function = .ok g ∧
      ((∀ (k : Nat) (d : MetricDim m) (i : Nat), ms[k]? = some d → idx[k]? = some i →
        ∃ v, d.metric f g = .ok v ∧ v < d.bound * (i + 1) / d.gridSize) →
      nodeCount b.function ≤ nodeCount g) := by
  obtain ⟨-, h2⟩ := C89_closed fuel f ms ops true r hprod hbound h
  obtain ⟨g, hg, hs⟩ := h2 b (List.mem_of_getElem? hb) hne o op ho hp
  refine ⟨g, hg, fun hin => ?_⟩
  by_contra hlt
  obtain ⟨c, hc, hle⟩ := settled_front hprod hbound h (hs (by omega)) hbox hin
  rw [hb] at hc
  cases hc
  exact hlt hle

/-- The bounds of the example are positive and its grid is small; the first bucket has 5 nodes and may
still use operator 9, which leads to 3 nodes with errors 9/16 and 3, that is coordinates 2 and 1.  The
bucket there has 1 node. -/
example : (∀ d ∈ exampleMetrics, 0 < d.bound) ∧ (exampleMetrics.map (·.gridSize)).prod < 2 ^ 64 := by
  refine ⟨fun d hd => ?_, by decide +kernel⟩
  simp only [exampleMetrics, List.mem_cons, List.not_mem_nil, or_false] at hd
  rcases hd with rfl | rfl <;> norm_num

example : ((bucketGreedyMinimize 49 exampleFunction exampleMetrics exampleOps true).toOption.bind
    (fun r => r[0]?)).map (fun b => (b.bddSize, b.isEmpty, b.possibleOps[9]?)) =
      some (5, false, some true) ∧
    ((bucketGreedyMinimize 49 exampleFunction exampleMetrics exampleOps true).toOption.bind
    (fun r => r[0]?)).bind (fun b => (exampleOps[9]?).bind (fun op => (op b.function).toOption.map (fun g =>
      (nodeCount g, exampleMetrics.map (fun d => (d.metric exampleFunction g).toOption))))) =
      some (3, [some (9 / 16), some 3]) ∧
    rank (exampleMetrics.map (·.gridSize)) [2, 1] = 5 ∧
    ((bucketGreedyMinimize 49 exampleFunction exampleMetrics exampleOps true).toOption.bind
    (fun r => r[5]?)).map (·.bddSize) = some 1 := by decide +kernel

end Verif

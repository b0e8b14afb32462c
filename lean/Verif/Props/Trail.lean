import Verif.Proofs.Trail
import Verif.Props.Bucket

/-!
# C80: the operators a bucket may still use

`possible_operators` of `/repo/src/minimization/bucket_minimization.cpp:73`, `93`, `100-115`, `130`,
`183-187`.
-/

namespace Verif

variable {m : Mgr}

/-! ## C80 -/

/-- Each bucket has been reached along a way on which every operator is used at most once.  Operators
of the way are switched off; any other that is switched off was tried on a function of the way and was
over a bound or too large.  Those still on were never used, and tried on no function of the way with a
result that had to be dropped. -/
theorem C80_possible_operators (fuel : Nat) (f : List (BDD m)) (ms : List (MetricDim m))
    (ops : List (OpFun m)) (populate : Bool) (r : List (Bucket m)) (hbound : ∀ d ∈ ms, 0 < d.bound)
    (h : bucketGreedyMinimize fuel f ms ops populate = .ok r) :
    ∀ b ∈ r, b.possibleOps.length = ops.length ∧
      ∃ w, Way nodeCount ops f w b.function ∧ (w.map (·.1)).Nodup ∧ (b.isEmpty = true → w = []) ∧
        (∀ o, b.possibleOps[o]? = some false → o ∈ w.map (·.1) ∨ ∃ p ∈ w, MayDrop nodeCount
          (fun h => ∃ d ∈ ms, ∃ v, d.metric f h = .ok v ∧ d.bound ≤ v) ops p.2 o) ∧
        (∀ o, b.possibleOps[o]? = some true → o ∉ w.map (·.1) ∧ ∀ p ∈ w, ¬ MustDrop nodeCount
          (fun h => ∃ d ∈ ms.head?, ∃ v, d.metric f h = .ok v ∧ d.bound ≤ v) ops p.2 o) := by
  intro b hb
  obtain ⟨w, hw⟩ := bucketGreedyMinimize_trail hbound h b hb
  exact ⟨hw.len, w, hw.way, hw.nodup, hw.empty, hw.off, hw.on⟩

/-- So no bucket is more than as many steps away from `f` as there are operators, and each operator
of those steps is switched off. -/
theorem C80_steps (fuel : Nat) (f : List (BDD m)) (ms : List (MetricDim m)) (ops : List (OpFun m))
    (populate : Bool) (r : List (Bucket m)) (hbound : ∀ d ∈ ms, 0 < d.bound)
    (h : bucketGreedyMinimize fuel f ms ops populate = .ok r) :
    ∀ b ∈ r, ∃ w, Way nodeCount ops f w b.function ∧ w.length ≤ ops.length ∧
      ∀ p ∈ w, b.possibleOps[p.1]? = some false := by
  intro b hb
  obtain ⟨hl, w, h1, h2, -, -, h5⟩ := C80_possible_operators fuel f ms ops populate r hbound h b hb
  have hlt : ∀ o ∈ w.map (·.1), o < ops.length := by
    clear h2 h5
    generalize b.function = g at h1
    induction h1 with
    | start => simp
    | step _ ho _ _ ih =>
      intro o hm
      rcases List.mem_cons.mp hm with rfl | hm
      · exact lt_of_getElem? ho
      · exact ih o hm
  refine ⟨w, h1, ?_, fun p hp => ?_⟩
  · have := (List.subperm_of_subset h2 (l₂ := List.range ops.length)
      (fun o ho => List.mem_range.mpr (hlt o ho))).length_le
    simpa using this
  · have hm : p.1 ∈ w.map (·.1) := List.mem_map_of_mem hp
    have hi : p.1 < b.possibleOps.length := by rw [hl]; exact hlt _ hm
    rw [List.getElem?_eq_getElem hi]
    cases hv : b.possibleOps[p.1] with
    | false => rfl
    | true => exact absurd hm (h5 p.1 (by rw [List.getElem?_eq_getElem hi, hv])).1

/-- The next bucket is the first one with the smallest sum of coordinates. -/
theorem C80_next (w : List Nat) (ws : List (List Nat)) :
    ∃ l r, w :: ws = l ++ minElement w ws :: r ∧ (∀ v ∈ l, (minElement w ws).sum < v.sum) ∧
      ∀ v ∈ r, (minElement w ws).sum ≤ v.sum := minElement_spec w ws

/-- The set of buckets to do stays in lexicographic order without duplicates, so that among equal sums
the lexicographically smallest is taken. -/
theorem C80_order (v : List Nat) (s : List (List Nat)) (hs : s.Pairwise (fun a b => a < b)) :
    (setInsert v s).Pairwise (fun a b => a < b) ∧ ∀ u, u ∈ setInsert v s ↔ u = v ∨ u ∈ s :=
  ⟨setInsert_sorted v s hs, fun _ => mem_setInsert⟩

/-- With a bound of 1/4 for the error rate: the operators switched off in each bucket.  The first bucket
stays empty, number 5 leads to the second one, and the others are over the bound. -/
example : (bucketGreedyMinimize 13 exampleFunction [⟨2, errorRate, 1 / 4⟩] exampleOps false).toOption.map
    (·.map (fun b => (b.possibleOps.zipIdx.filter (fun p => !p.1)).map (·.2))) = some
    [[], [1, 3, 5, 9, 11, 13, 15]] := by decide +kernel

example : minElement [0, 3] [[1, 1], [2, 0], [3, 0]] = [1, 1] := by decide +kernel

end Verif

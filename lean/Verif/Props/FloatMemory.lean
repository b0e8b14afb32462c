import Verif.Proofs.FloatMemory
import Verif.Props.RefCount
import Verif.Props.Float

/-! # C127: CUDD's reference counts if the operators compare rounded counts -/

namespace Verif

variable {m : Mgr} {rnd : ℚ → ℚ}

/-- The four child-removal operators, however the counts are rounded. -/
theorem C127_round_any (rnd : ℚ → ℚ) {E : Env} (hE : E.Fresh) {H : NodeTable} {f : BDD m} (hR : H.Ready f) (ls le : Nat)
    (heavy subset : Bool) {fuel : Nat} (hf : f.edge.n.size < fuel) :
    ∃ r q H', roundAnyF rnd f ls le heavy subset = .ok r ∧
      roundAnyPF rnd m E H f ls le heavy subset fuel = .ok (q, H') ∧
      H.After (touched (goRemove (fun a => shareF rnd a.n a.neg) ls le heavy) f.edge.n f.edge.neg) q r H' ∧
      H'.Ready r ∧ ∀ g : BDD m, H.Ready g → H'.Ready g := by
  obtain ⟨r, hr, _⟩ := roundAnyF_sem rnd f ls le heavy subset
  have hrun := hr
  simp only [roundAnyF, removeChildrenRec_gen, bind, Except.bind] at hrun
  cases hg : genRec (planRemove ls le (countMintermsF rnd f) heavy subset) f.edge.n f.wf f.edge.neg [] with
  | error x => rw [hg] at hrun; simp at hrun
  | ok x =>
    obtain ⟨r', mn⟩ := x
    rw [hg] at hrun
    simp only [Except.ok.injEq] at hrun
    subst hrun
    obtain ⟨a, cntP, x, q, H', h1, h2, h3, h4, h5⟩ := gen_top hE hR (minterm_keysF f)
      (planP := fun c => planRemoveP ls le c heavy subset) (fun c => planRemove_ok ls le c _ heavy subset) hg hf
      (goRemove_plan (w := fun a => shareF rnd a.n a.neg)
        (fun a ha => by rw [countMintermsF_find rnd f ha, shareF_eq]) ls le heavy subset)
    refine ⟨r', q, H', hr, ?_, h5, After.ready_result h5 hR (fun v hv => ?_), fun g hg => After.ready h5 hg⟩
    · simp only [roundAnyPF, removeChildrenP_gen, h1, h2, h3, h4, bind, Except.bind]
    · exact (genRec_vars (fun v => v ∈ f.supportIndices) f.edge.n f.wf f.edge.neg [] r' mn
        (fun v hv => by simpa [BDD.supportIndices] using hv) (by simp) hg).1 v hv

theorem C127_round_bdd (rnd : ℚ → ℚ) {E : Env} (hE : E.Fresh) {H : NodeTable} {f : BDD m} (hR : H.Ready f) (level : Nat)
    {fuel : Nat} (hf : f.edge.n.size < fuel) :
    ∃ r q H', roundBddF rnd f level = .ok r ∧ roundBddPF rnd m E H f level fuel = .ok (q, H') ∧
      H.After (touched (goRound level) f.edge.n f.edge.neg) q r H' ∧
      H'.Ready r ∧ ∀ g : BDD m, H.Ready g → H'.Ready g := by
  obtain ⟨r, hr, _⟩ := roundBddF_sem rnd f level
  have hrun := hr
  simp only [roundBddF, roundRec_gen, bind, Except.bind] at hrun
  cases hg : genRec (planRound level (countMintermsF rnd f)) f.edge.n f.wf f.edge.neg [] with
  | error x => rw [hg] at hrun; simp at hrun
  | ok x =>
    obtain ⟨r', mn⟩ := x
    rw [hg] at hrun
    simp only [Except.ok.injEq] at hrun
    subst hrun
    obtain ⟨a, cntP, x, q, H', h1, h2, h3, h4, h5⟩ := gen_top hE hR (minterm_keysF f)
      (planP := fun c => planRoundP level c) (fun c => planRound_ok level c _) hg hf (goRound_plan level)
    refine ⟨r', q, H', hr, ?_, h5, After.ready_result h5 hR (fun v hv => ?_), fun g hg => After.ready h5 hg⟩
    · simp only [roundBddPF, roundP_gen, h1, h2, h3, h4, bind, Except.bind]
    · exact (genRec_vars (fun v => v ∈ f.supportIndices) f.edge.n f.wf f.edge.neg [] r' mn
        (fun v hv => by simpa [BDD.supportIndices] using hv) (by simp) hg).1 v hv

/-- With rounding to nearest the four conditions of `round_best` exclude each other as they do without rounding. -/
theorem C127_round_best (hr : Nearest rnd) {E : Env} (hE : E.Fresh) {H : NodeTable} {f : BDD m} (hR : H.Ready f)
    (ls le : Nat) {fuel : Nat} (hf : f.edge.n.size < fuel) :
    ∃ r q H', roundBestF rnd f ls le = .ok r ∧ roundBestPF rnd m E H f ls le fuel = .ok (q, H') ∧
      H.After (touched (goBestF rnd ls le) f.edge.n f.edge.neg) q r H' ∧
      H'.Ready r ∧ ∀ g : BDD m, H.Ready g → H'.Ready g := by
  obtain ⟨r, hrr, _⟩ := roundBestF_sem rnd f ls le
  have hrun := hrr
  simp only [roundBestF, roundBestRecF_gen, bind, Except.bind] at hrun
  cases hg : genRec (planBestF rnd ls le (countMintermsF rnd f)) f.edge.n f.wf f.edge.neg [] with
  | error x => rw [hg] at hrun; simp at hrun
  | ok x =>
    obtain ⟨r', mn⟩ := x
    rw [hg] at hrun
    simp only [Except.ok.injEq] at hrun
    subst hrun
    obtain ⟨a, cntP, x, q, H', h1, h2, h3, h4, h5⟩ := gen_top hE hR (minterm_keysF f)
      (planP := fun c => planBestPF rnd ls le c) (fun c => planBestF_ok ls le c _) hg hf
      (goBestF_plan hr (fun a ha => countMintermsF_find rnd f ha) ls le)
    refine ⟨r', q, H', hrr, ?_, h5, After.ready_result h5 hR (fun v hv => ?_), fun g hg => After.ready h5 hg⟩
    · simp only [roundBestPF, roundBestRecPF_gen, h1, h2, h3, h4, bind, Except.bind]
    · exact (genRec_vars (fun v => v ∈ f.supportIndices) f.edge.n f.wf f.edge.neg [] r' mn
        (fun v hv => by simpa [BDD.supportIndices] using hv) (by simp) hg).1 v hv

/-- `round_up` (`subset = false`) and `round_down`. -/
theorem C127_round_up_down (rnd : ℚ → ℚ) (hm : m.Mono) {E : Env} (hE : E.Fresh) {H : NodeTable} {f : BDD m}
    (hR : H.Ready f) (tl : Nat) (htl : tl = terminalLevel [[f]]) (h64 : tl ≤ 2 ^ 64) (ls le : Nat) (subset : Bool)
    {fuel : Nat} (hf : f.edge.n.size < fuel) :
    ∃ r q H', (if subset then roundDownF rnd f ls le else roundUpF rnd f ls le) = .ok r ∧
      roundUpDownPF rnd m E H f ls le subset fuel = .ok (q, H') ∧
      H.After (touched (goRemove (fun a => solutionsF rnd tl a.n a.neg) ls le false) f.edge.n f.edge.neg) q r H' ∧
      H'.Ready r ∧ ∀ g : BDD m, H.Ready g → H'.Ready g := by
  have hsp : ∃ r, (if subset then roundDownF rnd f ls le else roundUpF rnd f ls le) = .ok r := by
    cases subset
    · obtain ⟨_, r, hr, _⟩ := roundUpF_sem rnd f ls le
      exact ⟨r, by simpa using hr⟩
    · obtain ⟨_, r, hr, _⟩ := roundDownF_sem rnd f ls le
      exact ⟨r, by simpa using hr⟩
  obtain ⟨r, hr⟩ := hsp
  have hrun : (do
      let r ← removeChildrenRec ls le (countSolutionsF rnd f) false subset f.edge.n f.wf f.edge.neg []
      .ok r.1 : Except Fault (BDD m)) = .ok r := by
    rw [← hr]
    cases subset <;> rfl
  simp only [removeChildrenRec_gen, bind, Except.bind] at hrun
  cases hg : genRec (planRemove ls le (countSolutionsF rnd f) false subset) f.edge.n f.wf f.edge.neg [] with
  | error x => rw [hg] at hrun; simp at hrun
  | ok x =>
    obtain ⟨r', mn⟩ := x
    rw [hg] at hrun
    simp only [Except.ok.injEq] at hrun
    subst hrun
    obtain ⟨a, cntP, x, q, H', h1, h2, h3, h4, h5⟩ := gen_top hE hR (solution_keysF f)
      (planP := fun c => planRemoveP ls le c false subset) (fun c => planRemove_ok ls le c _ false subset) hg hf
      (goRemove_plan (w := fun a => solutionsF rnd tl a.n a.neg) (fun a ha => by
        rw [countSolutionsF_find rnd f ha, ← htl]
        refine congrArg some (solutionsF_eq hm h64 a.n (DD.reach_wf f.wf ha) (fun v hv => ?_) a.neg)
        rw [htl]
        exact terminalLevel_gt (f := [f]) (by simp) (b := f) (by simp)
          (by simpa [BDD.supportIndices] using DD.reach_vars ha v hv)) ls le false subset)
    refine ⟨r', q, H', hr, ?_, h5, After.ready_result h5 hR (fun v hv => ?_), fun g hg => After.ready h5 hg⟩
    · simp only [roundUpDownPF, removeChildrenP_gen, h1, h2, h3, h4, bind, Except.bind]
    · exact (genRec_vars (fun v => v ∈ f.supportIndices) f.edge.n f.wf f.edge.neg [] r' mn
        (fun v hv => by simpa [BDD.supportIndices] using hv) (by simp) hg).1 v hv

/-- Whether references stay behind once the result is destroyed does not depend on the counts: they do unless the
argument is a constant or starts below the range. -/
theorem C127_balanced_iff (rnd : ℚ → ℚ) {E : Env} (hE : E.Fresh) {H : NodeTable} {f : BDD m} (hR : H.Ready f) (ls le : Nat)
    (heavy subset : Bool) {fuel : Nat} (hf : f.edge.n.size < fuel) :
    ∃ q H' H'', roundAnyPF rnd m E H f ls le heavy subset fuel = .ok (q, H') ∧ H'.deref q = .ok H'' ∧
      (H''.total = H.total ↔ f.edge.n = .one ∨ ∃ v t c e, f.edge.n = .node v t c e ∧ ls ≤ v ∧ le < v) := by
  obtain ⟨r, q, H', _, h2, h3, _⟩ := C127_round_any rnd hE hR ls le heavy subset hf
  obtain ⟨H'', g1, _, _, g4⟩ := C113_left_behind hR.valid h3
  refine ⟨q, H', H'', h2, g1, ?_⟩
  have e : H''.total = H.total ↔
      (touched (goRemove (fun a => shareF rnd a.n a.neg) ls le heavy) f.edge.n f.edge.neg).dedup.length = 0 := by omega
  rw [e, touched_none]
  refine or_congr Iff.rfl ⟨?_, ?_⟩
  · rintro ⟨v, t, c, e, h5, h6⟩
    refine ⟨v, t, c, e, h5, ?_⟩
    simp only [goRemove] at h6
    split_ifs at h6
    omega
  · rintro ⟨v, t, c, e, h5, h6, h7⟩
    refine ⟨v, t, c, e, h5, ?_⟩
    simp only [goRemove]
    rw [if_neg (by omega), if_neg (by omega)]

/-- With at most 53 variables the counts are exact, and the table changes as with exact counts. -/
theorem C127_exact (hr : Nearest rnd) {f : BDD m} (hN : Fits 53 [f]) (E : Env) (H : NodeTable) (ls le : Nat)
    (heavy subset : Bool) (fuel : Nat) :
    roundAnyPF rnd m E H f ls le heavy subset fuel = roundAnyP m E H f ls le heavy subset fuel ∧
    roundBddPF rnd m E H f ls fuel = roundBddP m E H f ls fuel ∧
    touched (goBestF rnd ls le) f.edge.n f.edge.neg = touched (goBest ls le) f.edge.n f.edge.neg ∧
    (m.Mono → roundUpDownPF rnd m E H f ls le subset fuel = roundUpDownP m E H f ls le subset fuel) := by
  have hh := DD.height_le_of_vars f.wf (hN.vars (DD.self_mem_reach _ _))
  have e := countMintermsF_eq hr f hh
  refine ⟨by rw [roundAnyPF, roundAnyP, e], by rw [roundBddPF, roundBddP, e], ?_, fun hm => ?_⟩
  · refine touched_congr _ _ fun neg v t c e he => ?_
    obtain ⟨h1, h2⟩ := reach_children he
    have h3 := (DD.reach_height h1).trans hh
    have h4 := (DD.reach_height h2).trans hh
    simp only [goBestF, goBest, shareF_eq, share_eq, FurtherF, fracF_exact hr _ _ h3, fracF_exact hr _ _ h4,
      one_sub_exact hr h3, one_sub_exact hr h4, closer_iff, gt_iff_lt]
  · rw [roundUpDownPF, roundUpDownP, countSolutionsF_eq hr hm f]
    refine terminalLevel_le (by norm_num) (fun g hg b hb v hv => ?_)
    simp only [List.mem_singleton] at hg
    subst hg
    exact hN b hb v hv

/-- The hypotheses can be met: a table, a rounding, and an operator that builds nodes. -/
example : ∃ rnd, Nearest rnd ∧ bumpEnv.Fresh ∧ xorHeap.Ready xorF ∧ xorF.edge.n.size < 10 ∧ Mgr.id.Mono ∧
    Fits 53 [xorF] ∧ terminalLevel [[xorF]] ≤ 2 ^ 64 ∧
    (touched (goBestF rnd 0 1) xorF.edge.n xorF.edge.neg).dedup.length = 1 := by
  obtain ⟨rnd, hr⟩ := exists_nearest
  have hF : Fits 53 [xorF] := by
    intro b hb v hv
    rw [List.mem_singleton] at hb
    subst hb
    revert v
    decide +kernel
  refine ⟨rnd, hr, bumpEnv_fresh, xorHeap_ready, by decide +kernel, fun _ _ h => h, hF, by decide +kernel, ?_⟩
  rw [(C127_exact hr hF bumpEnv xorHeap 0 1 false true 10).2.2.1]
  decide +kernel

end Verif

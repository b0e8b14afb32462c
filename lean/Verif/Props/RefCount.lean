import Verif.Proofs.RefCountOps

/-! # C112, C113: what the operators do to CUDD's reference counts -/

namespace Verif

variable {m : Mgr}

/-! ## Nothing in use is freed, and no freed node is used -/

/-- The four child-removal operators, whenever CUDD collects garbage and whatever addresses it uses. -/
theorem C112_round_any {E : Env} (hE : E.Fresh) {H : NodeTable} {f : BDD m} (hR : H.Ready f) (ls le : Nat)
    (heavy subset : Bool) {fuel : Nat} (hf : f.edge.n.size < fuel) :
    ∃ r q H', roundAny f ls le heavy subset = .ok r ∧ roundAnyP m E H f ls le heavy subset fuel = .ok (q, H') ∧
      H.After (touched (goRemove (fun a => share a.n a.neg) ls le heavy) f.edge.n f.edge.neg) q r H' ∧
      H'.Ready r ∧ ∀ g : BDD m, H.Ready g → H'.Ready g := by
  obtain ⟨r, hr, _⟩ := roundAny_spec f ls le heavy subset
  have hrun := hr
  simp only [roundAny, removeChildrenRec_gen, bind, Except.bind] at hrun
  cases hg : genRec (planRemove ls le (countMinterms f) heavy subset) f.edge.n f.wf f.edge.neg [] with
  | error x => rw [hg] at hrun; simp at hrun
  | ok x =>
    obtain ⟨r', mn⟩ := x
    rw [hg] at hrun
    simp only [Except.ok.injEq] at hrun
    subst hrun
    obtain ⟨a, cntP, x, q, H', h1, h2, h3, h4, h5⟩ := gen_top hE hR (minterm_keys f)
      (planP := fun c => planRemoveP ls le c heavy subset) (fun c => planRemove_ok ls le c _ heavy subset) hg hf
      (goRemove_plan (w := fun a => share a.n a.neg) (fun a ha => by rw [countMinterms_find f ha, share_eq]) ls le heavy subset)
    refine ⟨r', q, H', hr, ?_, h5, After.ready_result h5 hR (fun v hv => ?_), fun g hg => After.ready h5 hg⟩
    · simp only [roundAnyP, removeChildrenP_gen, h1, h2, h3, h4, bind, Except.bind]
    · exact (genRec_vars (fun v => v ∈ f.supportIndices) f.edge.n f.wf f.edge.neg [] r' mn
        (fun v hv => by simpa [BDD.supportIndices] using hv) (by simp) hg).1 v hv

theorem C112_round_bdd {E : Env} (hE : E.Fresh) {H : NodeTable} {f : BDD m} (hR : H.Ready f) (level : Nat) {fuel : Nat}
    (hf : f.edge.n.size < fuel) :
    ∃ r q H', roundBdd f level = .ok r ∧ roundBddP m E H f level fuel = .ok (q, H') ∧
      H.After (touched (goRound level) f.edge.n f.edge.neg) q r H' ∧
      H'.Ready r ∧ ∀ g : BDD m, H.Ready g → H'.Ready g := by
  obtain ⟨r, hr, _⟩ := roundBdd_spec f level
  have hrun := hr
  simp only [roundBdd, roundRec_gen, bind, Except.bind] at hrun
  cases hg : genRec (planRound level (countMinterms f)) f.edge.n f.wf f.edge.neg [] with
  | error x => rw [hg] at hrun; simp at hrun
  | ok x =>
    obtain ⟨r', mn⟩ := x
    rw [hg] at hrun
    simp only [Except.ok.injEq] at hrun
    subst hrun
    obtain ⟨a, cntP, x, q, H', h1, h2, h3, h4, h5⟩ := gen_top hE hR (minterm_keys f)
      (planP := fun c => planRoundP level c) (fun c => planRound_ok level c _) hg hf (goRound_plan level)
    refine ⟨r', q, H', hr, ?_, h5, After.ready_result h5 hR (fun v hv => ?_), fun g hg => After.ready h5 hg⟩
    · simp only [roundBddP, roundP_gen, h1, h2, h3, h4, bind, Except.bind]
    · exact (genRec_vars (fun v => v ∈ f.supportIndices) f.edge.n f.wf f.edge.neg [] r' mn
        (fun v hv => by simpa [BDD.supportIndices] using hv) (by simp) hg).1 v hv

theorem C112_round_best {E : Env} (hE : E.Fresh) {H : NodeTable} {f : BDD m} (hR : H.Ready f) (ls le : Nat) {fuel : Nat}
    (hf : f.edge.n.size < fuel) :
    ∃ r q H', roundBest f ls le = .ok r ∧ roundBestOpP m E H f ls le fuel = .ok (q, H') ∧
      H.After (touched (goBest ls le) f.edge.n f.edge.neg) q r H' ∧
      H'.Ready r ∧ ∀ g : BDD m, H.Ready g → H'.Ready g := by
  obtain ⟨r, hr, _⟩ := roundBest_spec f ls le
  have hrun := hr
  simp only [roundBest, roundBestRec_gen, bind, Except.bind] at hrun
  cases hg : genRec (planBest ls le (countMinterms f)) f.edge.n f.wf f.edge.neg [] with
  | error x => rw [hg] at hrun; simp at hrun
  | ok x =>
    obtain ⟨r', mn⟩ := x
    rw [hg] at hrun
    simp only [Except.ok.injEq] at hrun
    subst hrun
    obtain ⟨a, cntP, x, q, H', h1, h2, h3, h4, h5⟩ := gen_top hE hR (minterm_keys f)
      (planP := fun c => planBestP ls le c) (fun c => planBest_ok ls le c _) hg hf
      (goBest_plan (fun a ha => countMinterms_find f ha) ls le)
    refine ⟨r', q, H', hr, ?_, h5, After.ready_result h5 hR (fun v hv => ?_), fun g hg => After.ready h5 hg⟩
    · simp only [roundBestOpP, roundBestP_gen, h1, h2, h3, h4, bind, Except.bind]
    · exact (genRec_vars (fun v => v ∈ f.supportIndices) f.edge.n f.wf f.edge.neg [] r' mn
        (fun v hv => by simpa [BDD.supportIndices] using hv) (by simp) hg).1 v hv

/-- `round_up` (`subset = false`) and `round_down` compare the numbers of solutions. -/
theorem C112_round_up_down (hm : m.Mono) {E : Env} (hE : E.Fresh) {H : NodeTable} {f : BDD m} (hR : H.Ready f) (tl : Nat)
    (htl : tl = terminalLevel [[f]]) (h64 : tl ≤ 2 ^ 64) (ls le : Nat) (subset : Bool) {fuel : Nat}
    (hf : f.edge.n.size < fuel) :
    ∃ r q H', (if subset then roundDown f ls le else roundUp f ls le) = .ok r ∧
      roundUpDownP m E H f ls le subset fuel = .ok (q, H') ∧
      H.After (touched (goRemove (fun a => solutions tl a.n a.neg) ls le false) f.edge.n f.edge.neg) q r H' ∧
      H'.Ready r ∧ ∀ g : BDD m, H.Ready g → H'.Ready g := by
  have hsp : ∃ r, (if subset then roundDown f ls le else roundUp f ls le) = .ok r := by
    cases subset
    · obtain ⟨r, hr, _⟩ := roundUp_spec f ls le
      exact ⟨r, by simpa using hr⟩
    · obtain ⟨r, hr, _⟩ := roundDown_spec f ls le
      exact ⟨r, by simpa using hr⟩
  obtain ⟨r, hr⟩ := hsp
  have hrun : (do
      let r ← removeChildrenRec ls le (countSolutions f) false subset f.edge.n f.wf f.edge.neg []
      .ok r.1 : Except Fault (BDD m)) = .ok r := by
    rw [← hr]
    cases subset <;> rfl
  simp only [removeChildrenRec_gen, bind, Except.bind] at hrun
  cases hg : genRec (planRemove ls le (countSolutions f) false subset) f.edge.n f.wf f.edge.neg [] with
  | error x => rw [hg] at hrun; simp at hrun
  | ok x =>
    obtain ⟨r', mn⟩ := x
    rw [hg] at hrun
    simp only [Except.ok.injEq] at hrun
    subst hrun
    obtain ⟨a, cntP, x, q, H', h1, h2, h3, h4, h5⟩ := gen_top hE hR (solution_keys f)
      (planP := fun c => planRemoveP ls le c false subset) (fun c => planRemove_ok ls le c _ false subset) hg hf
      (goRemove_plan (w := fun a => solutions tl a.n a.neg) (fun a ha => by
        rw [countSolutions_find f ha, solutions_eq, solPure, htl]
        refine congrArg some (solutionPure_eq hm _ (htl ▸ h64) a.n a.neg (DD.reach_wf f.wf ha) (fun v hv => ?_))
        exact terminalLevel_gt (f := [f]) (by simp) (b := f) (by simp)
          (by simpa [BDD.supportIndices] using DD.reach_vars ha v hv)) ls le false subset)
    refine ⟨r', q, H', hr, ?_, h5, After.ready_result h5 hR (fun v hv => ?_), fun g hg => After.ready h5 hg⟩
    · simp only [roundUpDownP, removeChildrenP_gen, h1, h2, h3, h4, bind, Except.bind]
    · exact (genRec_vars (fun v => v ∈ f.supportIndices) f.edge.n f.wf f.edge.neg [] r' mn
        (fun v hv => by simpa [BDD.supportIndices] using hv) (by simp) hg).1 v hv

/-! ## What is left behind -/

/-- If the returned object is destroyed, one reference for every handle touched stays, and no reference of anything else
is lost. -/
theorem C113_left_behind {H H' : NodeTable} (hv : H.Valid) {T : List Edge} {q : Ptr} {r : BDD m} (h : H.After T q r H') :
    ∃ H'', H'.deref q = .ok H'' ∧ H''.Valid ∧ (∀ a, H.refs a ≤ H''.refs a) ∧
      H''.total = H.total + T.dedup.length := by
  obtain ⟨H'', h1, h2, h3, h4, _⟩ := After.drop hv h
  exact ⟨H'', h1, h2, h3, h4⟩

/-- Nothing stays exactly if the operator touches no node: the argument is a constant or starts below the range. -/
theorem C113_balanced_iff {E : Env} (hE : E.Fresh) {H : NodeTable} {f : BDD m} (hR : H.Ready f) (ls le : Nat)
    (heavy subset : Bool) {fuel : Nat} (hf : f.edge.n.size < fuel) :
    ∃ q H' H'', roundAnyP m E H f ls le heavy subset fuel = .ok (q, H') ∧ H'.deref q = .ok H'' ∧
      (H''.total = H.total ↔ f.edge.n = .one ∨ ∃ v t c e, f.edge.n = .node v t c e ∧ ls ≤ v ∧ le < v) := by
  obtain ⟨r, q, H', _, h2, h3, _⟩ := C112_round_any hE hR ls le heavy subset hf
  obtain ⟨H'', g1, _, _, g4⟩ := C113_left_behind hR.valid h3
  refine ⟨q, H', H'', h2, g1, ?_⟩
  have e : H''.total = H.total ↔
      (touched (goRemove (fun a => share a.n a.neg) ls le heavy) f.edge.n f.edge.neg).dedup.length = 0 := by omega
  rw [e, touched_none]
  refine or_congr Iff.rfl ⟨?_, ?_⟩
  · rintro ⟨v, t, c, e, h5, h6⟩
    refine ⟨v, t, c, e, h5, ?_⟩
    unfold goRemove at h6
    split_ifs at h6
    exact ⟨by omega, by omega⟩
  · rintro ⟨v, t, c, e, h5, h6, h7⟩
    refine ⟨v, t, c, e, h5, ?_⟩
    rw [goRemove, if_neg (by omega), if_neg (by omega)]

/-- Every call leaves the same number of references, also if the argument and the result are the same each time. -/
theorem C113_repeated_calls {E : Env} (hE : E.Fresh) {f : BDD m} (ls le : Nat) (heavy subset : Bool) {fuel : Nat}
    (hf : f.edge.n.size < fuel) : ∀ (n : Nat) (H : NodeTable), H.Ready f →
    ∃ H', roundAnyTimes m E f ls le heavy subset fuel n H = .ok H' ∧ H'.total = H.total +
      n * (touched (goRemove (fun a => share a.n a.neg) ls le heavy) f.edge.n f.edge.neg).dedup.length
  | 0, H, _ => ⟨H, rfl, by simp⟩
  | n + 1, H, hR => by
    obtain ⟨r, q, H', _, h2, h3, _⟩ := C112_round_any hE hR ls le heavy subset hf
    obtain ⟨H'', g1, g2, _, g4, g5⟩ := After.drop hR.valid h3
    obtain ⟨H3, k1, k2⟩ := C113_repeated_calls hE ls le heavy subset hf n H''
      ⟨g2, g5 _ hR.arg, g5 _ hR.one, fun v hv => g5 _ (hR.vars v hv)⟩
    refine ⟨H3, by simp only [roundAnyTimes, h2, g1, k1, bind, Except.bind], ?_⟩
    rw [k2, g4]
    ring

/-! ## A concrete table -/

/-- `x0 xor x1`. -/
def xorF : BDD Mgr.id := (BDD.var 0).xor (.var 1)

/-- The constant, the two variables and `x0 xor x1`, each with one reference. -/
def xorHeap : NodeTable where
  table := [(10, .one), (20, (BDD.var 0 : BDD Mgr.id).edge.n), (30, (BDD.var 1 : BDD Mgr.id).edge.n), (40, xorF.edge.n)]
  refs a := if a ∈ [10, 20, 30, 40] then 1 else 0
  calls := 0

/-- The address after the largest one; garbage is collected at every call. -/
def bumpEnv : Env where
  gc _ := true
  alloc T _ := (T.map Prod.fst).foldl max 0 + 1

theorem bumpEnv_fresh : bumpEnv.Fresh := by
  intro T d x hx h
  have := (foldl_max_spec (T.map Prod.fst) 0).2.1 x.1 (List.mem_map.mpr ⟨x, hx, rfl⟩)
  simp only [bumpEnv] at h
  omega

theorem xorHeap_ready : xorHeap.Ready xorF := by
  have hc : ∀ x ∈ xorHeap.table, ∀ s ∈ x.2.subs, s ∈ xorHeap.table.map Prod.snd := by decide +kernel
  refine ⟨⟨by decide +kernel, by decide +kernel, ?_, ?_⟩, ⟨40, by decide +kernel, by decide⟩, ⟨10, by decide +kernel, by decide⟩, ?_⟩
  · intro a d had s hs
    obtain ⟨⟨b, s'⟩, hb, rfl⟩ := List.mem_map.mp (hc (a, d) had s hs)
    exact ⟨b, hb⟩
  · intro a ha
    simp only [xorHeap]
    rw [if_neg]
    intro hm
    have : ∀ b ∈ [10, 20, 30, 40], b ∈ xorHeap.table.map Prod.fst := by decide +kernel
    obtain ⟨⟨b, d⟩, hb, rfl⟩ := List.mem_map.mp (this a hm)
    exact ha d hb
  · have hs : xorF.supportIndices = [0, 1] := by decide +kernel
    intro v hv
    rw [hs] at hv
    simp only [List.mem_cons, List.not_mem_nil, or_false] at hv
    rcases hv with rfl | rfl
    · exact ⟨20, by decide +kernel, by decide⟩
    · exact ⟨30, by decide +kernel, by decide⟩

/-- The hypotheses can be met, and the call builds a node. -/
example : bumpEnv.Fresh ∧ xorHeap.Ready xorF ∧ xorF.edge.n.size < 10 ∧
    (touched (goRemove (fun a => share a.n a.neg) 0 1 false) xorF.edge.n xorF.edge.neg).dedup.length = 2 := by
  exact ⟨bumpEnv_fresh, xorHeap_ready, by decide +kernel, by decide +kernel⟩

/-- The operators do not give back all the references they take. -/
theorem C113_balanced_false : ¬ ∀ (E : Env) (_ : E.Fresh) (H : NodeTable) (f : BDD Mgr.id) (_ : H.Ready f) (ls le fuel : Nat)
    (heavy subset : Bool) (q : Ptr) (H' H'' : NodeTable), roundAnyP Mgr.id E H f ls le heavy subset fuel = .ok (q, H') →
    H'.deref q = .ok H'' → H''.total = H.total := by
  intro h
  obtain ⟨q, H', H'', h1, h2, h3⟩ := C113_balanced_iff bumpEnv_fresh xorHeap_ready 0 0 false true
    (fuel := 10) (by decide +kernel)
  rcases h3.mp (h _ bumpEnv_fresh _ _ xorHeap_ready 0 0 10 false true q H' H'' h1 h2) with h4 | ⟨v, t, c, e, h4, _, h5⟩
  · exact absurd h4 (by decide +kernel)
  · have hv : v ∈ xorF.edge.n.vars.take 1 := by rw [h4]; simp [DD.vars]
    have : xorF.edge.n.vars.take 1 = [0] := by decide +kernel
    rw [this] at hv
    simp at hv
    omega

end Verif

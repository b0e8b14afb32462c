import Verif.Proofs.Nodes

/-!
# The approximation operators: removing the memo table, and what is computed
-/

namespace Verif

variable {m : Mgr}

/-! ### The functions computed, without memo table and without building BDDs -/

/-- Function computed by `remove_children_rec` for a handle, given the counts. -/
def removeSem (c : Edge → ℚ) (ls le : Nat) (heavy subset : Bool) : DD → Bool → Asg → Bool
  | .one, neg, _ => !neg
  | .node v t k e, neg, x =>
    if v < ls then
      if x v then removeSem c ls le heavy subset t neg x
      else removeSem c ls le heavy subset e (neg ^^ k) x
    else if v ≤ le then
      if heavy = decide (c ⟨neg, t⟩ > c ⟨neg ^^ k, e⟩) then
        if x v then !subset else removeSem c ls le heavy subset e (neg ^^ k) x
      else
        if x v then removeSem c ls le heavy subset t neg x else !subset
    else Edge.eval ⟨neg, .node v t k e⟩ x

/-- Function computed by `round_rec`. -/
def roundSem (c : Edge → ℚ) (ls : Nat) : DD → Bool → Asg → Bool
  | .one, neg, _ => !neg
  | .node v t k e, neg, x =>
    if v < ls then
      if x v then roundSem c ls t neg x else roundSem c ls e (neg ^^ k) x
    else decide (c ⟨neg, .node v t k e⟩ > 1 / 2)

/-- Function computed by `round_best_rec`. -/
def roundBestSem (c : Edge → ℚ) (ls le : Nat) : DD → Bool → Asg → Bool
  | .one, neg, _ => !neg
  | .node v t k e, neg, x =>
    if v < ls then
      if x v then roundBestSem c ls le t neg x else roundBestSem c ls le e (neg ^^ k) x
    else if v ≤ le then
      let tc := c ⟨neg, t⟩
      let ec := c ⟨neg ^^ k, e⟩
      if tc < ec ∧ tc < 1 - ec then
        if x v then false else roundBestSem c ls le e (neg ^^ k) x
      else if ec < tc ∧ ec < 1 - tc then
        if x v then roundBestSem c ls le t neg x else false
      else if tc > ec ∧ tc > 1 - ec then
        if x v then true else roundBestSem c ls le e (neg ^^ k) x
      else if ec > tc ∧ ec > 1 - tc then
        if x v then roundBestSem c ls le t neg x else true
      else if x v then decide (tc > 1 / 2) else decide (ec > 1 / 2)
    else Edge.eval ⟨neg, .node v t k e⟩ x

/-- Every entry of the memo table computes the function of its key. -/
def RMapOk (F : DD → Bool → Asg → Bool) (mp : NMap (BDD m)) : Prop :=
  ∀ k r, NMap.find mp k = some r → ∀ x, r.eval x = F k.n k.neg x

theorem rmapOk_nil (F : DD → Bool → Asg → Bool) : RMapOk (m := m) F [] := by
  intro k r h; simp [NMap.find] at h

theorem rmapOk_insert {F : DD → Bool → Asg → Bool} {mp : NMap (BDD m)} (h : RMapOk F mp)
    (k : Edge) (r : BDD m) (hr : ∀ x, r.eval x = F k.n k.neg x) :
    RMapOk F (NMap.insert mp k r) := by
  intro k' r' hf
  rw [NMap.find_insert] at hf
  split at hf
  · rename_i he
    cases hf; subst he; exact hr
  · exact h k' r' hf

@[simp] theorem eval_fillTerminal (s : Bool) (x : Asg) :
    (fillTerminal s : BDD m).eval x = !s := by cases s <;> rfl

theorem reach_then {v : Nat} {t e : DD} {k neg : Bool} {a : Edge} (h : a ∈ t.reach neg) :
    a ∈ (DD.node v t k e).reach neg := by
  simp only [DD.reach, List.mem_cons, List.mem_append]; exact .inr (.inl h)

theorem reach_else {v : Nat} {t e : DD} {k neg : Bool} {a : Edge} (h : a ∈ e.reach (neg ^^ k)) :
    a ∈ (DD.node v t k e).reach neg := by
  simp only [DD.reach, List.mem_cons, List.mem_append]; exact .inr (.inr h)

theorem removeChildrenRec_spec (c : Edge → ℚ) (cnt : NMap ℚ) (ls le : Nat) (heavy subset : Bool)
    (d : DD) (h : d.WF m) : ∀ (neg : Bool) (mp : NMap (BDD m)),
    (∀ a ∈ d.reach neg, NMap.find cnt a = some (c a)) →
    RMapOk (removeSem c ls le heavy subset) mp →
    ∃ r mp', removeChildrenRec ls le cnt heavy subset d h neg mp = .ok (r, mp') ∧
      (∀ x, r.eval x = removeSem c ls le heavy subset d neg x) ∧
      RMapOk (removeSem c ls le heavy subset) mp' := by
  induction d with
  | one =>
    intro neg mp _ hm
    exact ⟨_, mp, rfl, fun x => by cases neg <;> rfl, hm⟩
  | node v t k e iht ihe =>
    intro neg mp hc hm
    have hct := fun a ha => hc a (reach_then ha)
    have hce := fun a ha => hc a (reach_else ha)
    rw [removeChildrenRec]
    split
    · rename_i r hr
      exact ⟨r, mp, rfl, hm _ _ hr, hm⟩
    · by_cases h1 : v < ls
      · rw [if_pos h1]
        obtain ⟨r1, mp1, e1, s1, i1⟩ := iht h.1 neg mp hct hm
        obtain ⟨r2, mp2, e2, s2, i2⟩ := ihe h.2.1 (neg ^^ k) mp1 hce i1
        have hs : ∀ x, (BDD.ite (.var v) r1 r2).eval x =
            removeSem c ls le heavy subset (.node v t k e) neg x := by
          intro x; simp [removeSem, h1, s1, s2]
        exact ⟨_, _, by simp only [e1, e2, bind, Except.bind]; rfl, hs,
          rmapOk_insert i2 _ _ hs⟩
      · rw [if_neg h1]
        by_cases h2 : v ≤ le
        · rw [if_pos h2, hct _ (DD.self_mem_reach t neg), hce _ (DD.self_mem_reach e _)]
          simp only
          by_cases h3 : heavy = decide (c ⟨neg, t⟩ > c ⟨neg ^^ k, e⟩)
          · rw [if_pos h3]
            obtain ⟨r2, mp2, e2, s2, i2⟩ := ihe h.2.1 (neg ^^ k) mp hce hm
            have hs : ∀ x, (BDD.ite (.var v) (fillTerminal subset) r2).eval x =
                removeSem c ls le heavy subset (.node v t k e) neg x := by
              intro x
              rw [removeSem, if_neg h1, if_pos h2, if_pos h3]
              simp [s2]
            exact ⟨_, _, by simp only [e2, bind, Except.bind]; rfl, hs, rmapOk_insert i2 _ _ hs⟩
          · rw [if_neg h3]
            obtain ⟨r1, mp1, e1, s1, i1⟩ := iht h.1 neg mp hct hm
            have hs : ∀ x, (BDD.ite (.var v) r1 (fillTerminal subset)).eval x =
                removeSem c ls le heavy subset (.node v t k e) neg x := by
              intro x
              rw [removeSem, if_neg h1, if_pos h2, if_neg h3]
              simp [s1]
            exact ⟨_, _, by simp only [e1, bind, Except.bind]; rfl, hs, rmapOk_insert i1 _ _ hs⟩
        · rw [if_neg h2]
          refine ⟨_, mp, rfl, fun x => ?_, hm⟩
          rw [removeSem, if_neg h1, if_neg h2]
          rfl

theorem roundRec_spec (c : Edge → ℚ) (cnt : NMap ℚ) (ls : Nat)
    (d : DD) (h : d.WF m) : ∀ (neg : Bool) (mp : NMap (BDD m)),
    (∀ a ∈ d.reach neg, NMap.find cnt a = some (c a)) → RMapOk (roundSem c ls) mp →
    ∃ r mp', roundRec ls cnt d h neg mp = .ok (r, mp') ∧
      (∀ x, r.eval x = roundSem c ls d neg x) ∧ RMapOk (roundSem c ls) mp' := by
  induction d with
  | one =>
    intro neg mp _ hm
    exact ⟨_, mp, rfl, fun x => by cases neg <;> rfl, hm⟩
  | node v t k e iht ihe =>
    intro neg mp hc hm
    have hct := fun a ha => hc a (reach_then ha)
    have hce := fun a ha => hc a (reach_else ha)
    rw [roundRec]
    split
    · rename_i r hr
      exact ⟨r, mp, rfl, hm _ _ hr, hm⟩
    · by_cases h1 : v < ls
      · rw [if_pos h1]
        obtain ⟨r1, mp1, e1, s1, i1⟩ := iht h.1 neg mp hct hm
        obtain ⟨r2, mp2, e2, s2, i2⟩ := ihe h.2.1 (neg ^^ k) mp1 hce i1
        have hs : ∀ x, (BDD.ite (.var v) r1 r2).eval x = roundSem c ls (.node v t k e) neg x := by
          intro x; simp [roundSem, h1, s1, s2]
        exact ⟨_, _, by simp only [e1, e2, bind, Except.bind]; rfl, hs,
          rmapOk_insert i2 _ _ hs⟩
      · rw [if_neg h1, hc _ (DD.self_mem_reach _ _)]
        have hs : ∀ x, (if c ⟨neg, .node v t k e⟩ > 1 / 2 then BDD.one else BDD.zero : BDD m).eval x =
            roundSem c ls (.node v t k e) neg x := by
          intro x
          rw [roundSem, if_neg h1]
          split <;> simp_all
        exact ⟨_, _, rfl, hs, rmapOk_insert hm _ _ hs⟩

theorem roundBestRec_spec (c : Edge → ℚ) (cnt : NMap ℚ) (ls le : Nat)
    (d : DD) (h : d.WF m) : ∀ (neg : Bool) (mp : NMap (BDD m)),
    (∀ a ∈ d.reach neg, NMap.find cnt a = some (c a)) → RMapOk (roundBestSem c ls le) mp →
    ∃ r mp', roundBestRec ls le cnt d h neg mp = .ok (r, mp') ∧
      (∀ x, r.eval x = roundBestSem c ls le d neg x) ∧ RMapOk (roundBestSem c ls le) mp' := by
  induction d with
  | one =>
    intro neg mp _ hm
    exact ⟨_, mp, rfl, fun x => by cases neg <;> rfl, hm⟩
  | node v t k e iht ihe =>
    intro neg mp hc hm
    have hct := fun a ha => hc a (reach_then ha)
    have hce := fun a ha => hc a (reach_else ha)
    rw [roundBestRec]
    split
    · rename_i r hr
      exact ⟨r, mp, rfl, hm _ _ hr, hm⟩
    · by_cases h1 : v < ls
      · rw [if_pos h1]
        obtain ⟨r1, mp1, e1, s1, i1⟩ := iht h.1 neg mp hct hm
        obtain ⟨r2, mp2, e2, s2, i2⟩ := ihe h.2.1 (neg ^^ k) mp1 hce i1
        have hs : ∀ x, (BDD.ite (.var v) r1 r2).eval x =
            roundBestSem c ls le (.node v t k e) neg x := by
          intro x; simp [roundBestSem, h1, s1, s2]
        exact ⟨_, _, by simp only [e1, e2, bind, Except.bind]; rfl, hs,
          rmapOk_insert i2 _ _ hs⟩
      · rw [if_neg h1]
        by_cases h2 : v ≤ le
        · rw [if_pos h2, hct _ (DD.self_mem_reach t neg), hce _ (DD.self_mem_reach e _)]
          simp only
          obtain ⟨r1, mp1, e1, s1, i1⟩ := iht h.1 neg mp hct hm
          obtain ⟨r2, mp2, e2, s2, i2⟩ := ihe h.2.1 (neg ^^ k) mp hce hm
          have hsem : ∀ x, roundBestSem c ls le (.node v t k e) neg x = _ := fun x => by
            rw [roundBestSem, if_neg h1, if_pos h2]
          split
          · rename_i h3
            have hs : ∀ x, (BDD.ite (.var v) .zero r2).eval x =
                roundBestSem c ls le (.node v t k e) neg x := by
              intro x
              rw [hsem]; simp only [if_pos h3]; simp [s2]
            exact ⟨_, _, by simp only [e2, bind, Except.bind]; rfl, hs, rmapOk_insert i2 _ _ hs⟩
          · rename_i h3
            split
            · rename_i h4
              have hs : ∀ x, (BDD.ite (.var v) r1 .zero).eval x =
                  roundBestSem c ls le (.node v t k e) neg x := by
                intro x
                rw [hsem]; simp only [if_neg h3, if_pos h4]; simp [s1]
              exact ⟨_, _, by simp only [e1, bind, Except.bind]; rfl, hs, rmapOk_insert i1 _ _ hs⟩
            · rename_i h4
              split
              · rename_i h5
                have hs : ∀ x, (BDD.ite (.var v) .one r2).eval x =
                    roundBestSem c ls le (.node v t k e) neg x := by
                  intro x
                  rw [hsem]; simp only [if_neg h3, if_neg h4, if_pos h5]; simp [s2]
                exact ⟨_, _, by simp only [e2, bind, Except.bind]; rfl, hs, rmapOk_insert i2 _ _ hs⟩
              · rename_i h5
                split
                · rename_i h6
                  have hs : ∀ x, (BDD.ite (.var v) r1 .one).eval x =
                      roundBestSem c ls le (.node v t k e) neg x := by
                    intro x
                    rw [hsem]; simp only [if_neg h3, if_neg h4, if_neg h5, if_pos h6]; simp [s1]
                  exact ⟨_, _, by simp only [e1, bind, Except.bind]; rfl, hs,
                    rmapOk_insert i1 _ _ hs⟩
                · rename_i h6
                  have hs : ∀ x, (BDD.ite (.var v)
                      (if c ⟨neg, t⟩ > 1 / 2 then .one else .zero)
                      (if c ⟨neg ^^ k, e⟩ > 1 / 2 then .one else .zero) : BDD m).eval x =
                      roundBestSem c ls le (.node v t k e) neg x := by
                    intro x
                    rw [hsem]; simp only [if_neg h3, if_neg h4, if_neg h5, if_neg h6]
                    rw [BDD.eval_ite]
                    simp only [BDD.eval_var]
                    split <;> split <;> simp_all
                  exact ⟨_, _, rfl, hs, rmapOk_insert hm _ _ hs⟩
        · rw [if_neg h2]
          refine ⟨_, mp, rfl, fun x => ?_, hm⟩
          rw [roundBestSem, if_neg h1, if_neg h2]
          rfl

/-! ### The operators -/

theorem roundAny_spec (f : BDD m) (ls le : Nat) (heavy subset : Bool) :
    ∃ r, roundAny f ls le heavy subset = .ok r ∧
      ∀ x, r.eval x = removeSem Edge.frac ls le heavy subset f.edge.n f.edge.neg x := by
  obtain ⟨r, mp, he, hs, _⟩ := removeChildrenRec_spec Edge.frac (countMinterms f) ls le heavy subset
    f.edge.n f.wf f.edge.neg [] (fun a ha => countMinterms_find f ha) (rmapOk_nil _)
  exact ⟨r, by simp [roundAny, he, bind, Except.bind], hs⟩

theorem roundUp_spec (f : BDD m) (ls le : Nat) :
    ∃ r, roundUp f ls le = .ok r ∧
      ∀ x, r.eval x = removeSem (solPure f) ls le false false f.edge.n f.edge.neg x := by
  obtain ⟨r, mp, he, hs, _⟩ := removeChildrenRec_spec (solPure f) (countSolutions f) ls le false false
    f.edge.n f.wf f.edge.neg [] (fun a ha => countSolutions_find f ha) (rmapOk_nil _)
  exact ⟨r, by simp [roundUp, he, bind, Except.bind], hs⟩

theorem roundDown_spec (f : BDD m) (ls le : Nat) :
    ∃ r, roundDown f ls le = .ok r ∧
      ∀ x, r.eval x = removeSem (solPure f) ls le false true f.edge.n f.edge.neg x := by
  obtain ⟨r, mp, he, hs, _⟩ := removeChildrenRec_spec (solPure f) (countSolutions f) ls le false true
    f.edge.n f.wf f.edge.neg [] (fun a ha => countSolutions_find f ha) (rmapOk_nil _)
  exact ⟨r, by simp [roundDown, he, bind, Except.bind], hs⟩

theorem roundBdd_spec (f : BDD m) (l : Nat) :
    ∃ r, roundBdd f l = .ok r ∧
      ∀ x, r.eval x = roundSem Edge.frac l f.edge.n f.edge.neg x := by
  obtain ⟨r, mp, he, hs, _⟩ := roundRec_spec Edge.frac (countMinterms f) l
    f.edge.n f.wf f.edge.neg [] (fun a ha => countMinterms_find f ha) (rmapOk_nil _)
  exact ⟨r, by simp [roundBdd, he, bind, Except.bind], hs⟩

theorem roundBest_spec (f : BDD m) (ls le : Nat) :
    ∃ r, roundBest f ls le = .ok r ∧
      ∀ x, r.eval x = roundBestSem Edge.frac ls le f.edge.n f.edge.neg x := by
  obtain ⟨r, mp, he, hs, _⟩ := roundBestRec_spec Edge.frac (countMinterms f) ls le
    f.edge.n f.wf f.edge.neg [] (fun a ha => countMinterms_find f ha) (rmapOk_nil _)
  exact ⟨r, by simp [roundBest, he, bind, Except.bind], hs⟩

/-! ### Under- and over-approximation -/

theorem removeSem_subset (c : Edge → ℚ) (ls le : Nat) (heavy : Bool) (d : DD) :
    ∀ (neg : Bool) (x : Asg), removeSem c ls le heavy true d neg x = true →
      Edge.eval ⟨neg, d⟩ x = true := by
  induction d with
  | one => intro neg x h; cases neg <;> simp_all [removeSem, Edge.eval, DD.eval]
  | node v t k e iht ihe =>
    intro neg x h
    have it := iht neg x
    have ie := ihe (neg ^^ k) x
    clear iht ihe
    rw [removeSem] at h
    rw [Edge.eval_node]
    split_ifs at h <;> rename_i hx <;> simp_all [Edge.eval_node]

theorem removeSem_superset (c : Edge → ℚ) (ls le : Nat) (heavy : Bool) (d : DD) :
    ∀ (neg : Bool) (x : Asg), Edge.eval ⟨neg, d⟩ x = true →
      removeSem c ls le heavy false d neg x = true := by
  induction d with
  | one => intro neg x h; cases neg <;> simp_all [removeSem, Edge.eval, DD.eval]
  | node v t k e iht ihe =>
    intro neg x h
    have it := iht neg x
    have ie := ihe (neg ^^ k) x
    clear iht ihe
    rw [Edge.eval_node] at h
    rw [removeSem, Edge.eval_node]
    split_ifs at h ⊢ <;> simp_all

theorem removeSem_untouched (c : Edge → ℚ) (ls le : Nat) (heavy subset : Bool) (d : DD)
    (h : ∀ v ∈ d.vars, ¬ (ls ≤ v ∧ v ≤ le)) : ∀ (neg : Bool) (x : Asg),
    removeSem c ls le heavy subset d neg x = Edge.eval ⟨neg, d⟩ x := by
  induction d with
  | one => intro neg x; cases neg <;> rfl
  | node v t k e iht ihe =>
    intro neg x
    have hv := h v (by simp [DD.vars])
    rw [removeSem, Edge.eval_node,
      iht (fun w hw => h w (by simp [DD.vars, hw])), ihe (fun w hw => h w (by simp [DD.vars, hw]))]
    by_cases h1 : v < ls
    · rw [if_pos h1]
    · rw [if_neg h1, if_neg (by omega)]

theorem roundBestSem_untouched (c : Edge → ℚ) (ls le : Nat) (d : DD)
    (h : ∀ v ∈ d.vars, ¬ (ls ≤ v ∧ v ≤ le)) : ∀ (neg : Bool) (x : Asg),
    roundBestSem c ls le d neg x = Edge.eval ⟨neg, d⟩ x := by
  induction d with
  | one => intro neg x; cases neg <;> rfl
  | node v t k e iht ihe =>
    intro neg x
    have hv := h v (by simp [DD.vars])
    rw [roundBestSem, Edge.eval_node,
      iht (fun w hw => h w (by simp [DD.vars, hw])), ihe (fun w hw => h w (by simp [DD.vars, hw]))]
    by_cases h1 : v < ls
    · rw [if_pos h1]
    · rw [if_neg h1, if_neg (by omega)]

theorem roundSem_untouched (c : Edge → ℚ) (ls : Nat) (d : DD)
    (h : ∀ v ∈ d.vars, v < ls) : ∀ (neg : Bool) (x : Asg),
    roundSem c ls d neg x = Edge.eval ⟨neg, d⟩ x := by
  induction d with
  | one => intro neg x; cases neg <;> rfl
  | node v t k e iht ihe =>
    intro neg x
    rw [roundSem, Edge.eval_node, if_pos (h v (by simp [DD.vars])),
      iht (fun w hw => h w (by simp [DD.vars, hw])), ihe (fun w hw => h w (by simp [DD.vars, hw]))]

end Verif

import Verif.Proofs.OperatorBest
import Mathlib.Tactic.NormNum

/-!
# C48 – C54, C72, C73: approximation operators

`onSet N g` is the size of the ON-set of `g` as a fraction of all `2^N` inputs, `cofAt g j x b` is
`g` with the variables below `j` fixed as in `x` and variable `j` set to `b`, `DepAt g j x` says that
these two cofactors differ, i.e. that the diagram has a node for `j` on the path given by `x`.
-/

namespace Verif

variable {m : Mgr}

theorem fits_xor01' : Fits 2 [(BDD.var 0 : BDD Mgr.id).xor (.var 1)] := by decide +kernel

/-! ## C48, C49: under- and over-approximation (any variable order, any range) -/

theorem C48_subset_operators (f : BDD m) (ls le : Nat) :
    (∃ r, subsetLightChild f ls le = .ok r ∧ ∀ x, r.eval x = true → f.eval x = true) ∧
    (∃ r, subsetHeavyChild f ls le = .ok r ∧ ∀ x, r.eval x = true → f.eval x = true) ∧
    (∃ r, roundDown f ls le = .ok r ∧ ∀ x, r.eval x = true → f.eval x = true) := by
  refine ⟨?_, ?_, ?_⟩
  · obtain ⟨r, hr, hs⟩ := roundAny_spec f ls le false true
    exact ⟨r, hr, fun x hx => removeSem_subset _ _ _ _ _ _ _ (hs x ▸ hx)⟩
  · obtain ⟨r, hr, hs⟩ := roundAny_spec f ls le true true
    exact ⟨r, hr, fun x hx => removeSem_subset _ _ _ _ _ _ _ (hs x ▸ hx)⟩
  · obtain ⟨r, hr, hs⟩ := roundDown_spec f ls le
    exact ⟨r, hr, fun x hx => removeSem_subset _ _ _ _ _ _ _ (hs x ▸ hx)⟩

theorem C49_superset_operators (f : BDD m) (ls le : Nat) :
    (∃ r, supersetLightChild f ls le = .ok r ∧ ∀ x, f.eval x = true → r.eval x = true) ∧
    (∃ r, supersetHeavyChild f ls le = .ok r ∧ ∀ x, f.eval x = true → r.eval x = true) ∧
    (∃ r, roundUp f ls le = .ok r ∧ ∀ x, f.eval x = true → r.eval x = true) := by
  refine ⟨?_, ?_, ?_⟩
  · obtain ⟨r, hr, hs⟩ := roundAny_spec f ls le false false
    exact ⟨r, hr, fun x hx => by rw [hs]; exact removeSem_superset _ _ _ _ _ _ _ hx⟩
  · obtain ⟨r, hr, hs⟩ := roundAny_spec f ls le true false
    exact ⟨r, hr, fun x hx => by rw [hs]; exact removeSem_superset _ _ _ _ _ _ _ hx⟩
  · obtain ⟨r, hr, hs⟩ := roundUp_spec f ls le
    exact ⟨r, hr, fun x hx => by rw [hs]; exact removeSem_superset _ _ _ _ _ _ _ hx⟩

/-- The operators really change something: `x0 xor x1` at level 0 becomes `x1 ∧ ¬x0`. -/
example : (subsetLightChild ((BDD.var 0 : BDD Mgr.id).xor (.var 1)) 0 0).toOption.map (·.edge) =
    some ((BDD.var 0 : BDD Mgr.id).not.and (.var 1)).edge := by decide +kernel

/-! ## C50: exactly the light (heavy) child is replaced -/

theorem C50_subset_light_child (hm : m.Mono) (f : BDD m) (N : Nat) (hN : Fits N [f]) (ls le : Nat) :
    ∃ r, subsetLightChild f ls le = .ok r ∧ ∀ x,
      (HitAt (onSet N) false ls le f.eval x → r.eval x = false) ∧
      (¬ HitAt (onSet N) false ls le f.eval x → r.eval x = f.eval x) :=
  roundAny_hit hm f N hN ls le false true

theorem C50_subset_heavy_child (hm : m.Mono) (f : BDD m) (N : Nat) (hN : Fits N [f]) (ls le : Nat) :
    ∃ r, subsetHeavyChild f ls le = .ok r ∧ ∀ x,
      (HitAt (onSet N) true ls le f.eval x → r.eval x = false) ∧
      (¬ HitAt (onSet N) true ls le f.eval x → r.eval x = f.eval x) :=
  roundAny_hit hm f N hN ls le true true

theorem C50_superset_light_child (hm : m.Mono) (f : BDD m) (N : Nat) (hN : Fits N [f])
    (ls le : Nat) : ∃ r, supersetLightChild f ls le = .ok r ∧ ∀ x,
      (HitAt (onSet N) false ls le f.eval x → r.eval x = true) ∧
      (¬ HitAt (onSet N) false ls le f.eval x → r.eval x = f.eval x) :=
  roundAny_hit hm f N hN ls le false false

theorem C50_superset_heavy_child (hm : m.Mono) (f : BDD m) (N : Nat) (hN : Fits N [f])
    (ls le : Nat) : ∃ r, supersetHeavyChild f ls le = .ok r ∧ ∀ x,
      (HitAt (onSet N) true ls le f.eval x → r.eval x = true) ∧
      (¬ HitAt (onSet N) true ls le f.eval x → r.eval x = f.eval x) :=
  roundAny_hit hm f N hN ls le true false

/-- The single-level form: wherever the function depends on `j`, the cofactor with the smaller
ON-set becomes constant false and the other one stays; elsewhere nothing changes. -/
theorem C50_subset_light_child_level (hm : m.Mono) (f : BDD m) (N : Nat) (hN : Fits N [f])
    (j : Nat) : ∃ r, subsetLightChild f j j = .ok r ∧ ∀ x,
      (DepAt f.eval j x → ∃ b,
        onSet N (cofAt f.eval j x b) ≤ onSet N (cofAt f.eval j x (!b)) ∧
        (∀ y, cofAt r.eval j x b y = false) ∧
        cofAt r.eval j x (!b) = cofAt f.eval j x (!b)) ∧
      (¬ DepAt f.eval j x → r.eval x = f.eval x) := by
  obtain ⟨r, hr, hs⟩ := C50_subset_light_child hm f N hN j j
  refine ⟨r, hr, fun x => ⟨fun hd => ?_, fun hd => ?_⟩⟩
  · obtain ⟨b, hb, hnb⟩ := exists_remBranch (onSet N) false f.eval j x
    obtain ⟨h1, h2⟩ := single_cof hs x hd b hb hnb
    refine ⟨b, ?_, h1, h2⟩
    unfold RemBranch at hb
    cases b
    · simp at hb; simpa using hb.le
    · simp at hb; simpa using hb
  · exact (hs x).2 (fun h => hd ((hitAt_single _ _ _ _ _).mp h).1)

example : Mgr.id.Mono ∧ Fits 2 [(BDD.var 0 : BDD Mgr.id).xor (.var 1)] ∧
    DepAt ((BDD.var 0 : BDD Mgr.id).xor (.var 1)).eval 0 (fun _ => false) ∧
    HitAt (onSet 2) false 0 0 ((BDD.var 0 : BDD Mgr.id).xor (.var 1)).eval (fun _ => true) := by
  have hd : ∀ x, DepAt ((BDD.var 0 : BDD Mgr.id).xor (.var 1)).eval 0 x := fun x =>
    ⟨fun _ => false, by simp [cofAt, mix]⟩
  refine ⟨Mgr.id_mono, by decide +kernel, hd _, ?_⟩
  rw [hitAt_single]
  refine ⟨hd _, ?_⟩
  have h1 : cofAt ((BDD.var 0 : BDD Mgr.id).xor (.var 1)).eval 0 (fun _ => true) true =
      fun y => !y 1 := by funext y; simp [cofAt, mix]
  have h2 : cofAt ((BDD.var 0 : BDD Mgr.id).xor (.var 1)).eval 0 (fun _ => true) false =
      fun y => y 1 := by funext y; simp [cofAt, mix]
  unfold RemBranch
  rw [h1, h2]
  have : onSet 2 (fun y => !y 1) = onSet 2 (fun y => y 1) := by
    simp only [onSet, mean]; decide +kernel
  simp [this]

/-! ## C51: functions without nodes in the range are returned as they are -/

theorem C51_untouched (f : BDD m) (ls le : Nat)
    (h : ∀ v ∈ f.supportIndices, v < ls ∨ le < v) :
    subsetLightChild f ls le = .ok f ∧ subsetHeavyChild f ls le = .ok f ∧
    supersetLightChild f ls le = .ok f ∧ supersetHeavyChild f ls le = .ok f ∧
    roundUp f ls le = .ok f ∧ roundDown f ls le = .ok f ∧ roundBest f ls le = .ok f := by
  have h' : ∀ v ∈ f.edge.n.vars, ¬ (ls ≤ v ∧ v ≤ le) := fun v hv => by
    have := h v (by unfold BDD.supportIndices; rw [List.mem_dedup]; exact hv)
    omega
  have key : ∀ {o : Except Fault (BDD m)} {s : DD → Bool → Asg → Bool},
      (∃ r, o = .ok r ∧ ∀ x, r.eval x = s f.edge.n f.edge.neg x) →
      (∀ neg x, s f.edge.n neg x = Edge.eval ⟨neg, f.edge.n⟩ x) → o = .ok f := by
    rintro o s ⟨r, rfl, hr⟩ hs
    congr 1
    apply BDD.ext_eval
    intro x
    rw [hr x, hs]
    rfl
  refine ⟨?_, ?_, ?_, ?_, ?_, ?_, ?_⟩
  · exact key (roundAny_spec f ls le false true) (removeSem_untouched _ _ _ _ _ _ h')
  · exact key (roundAny_spec f ls le true true) (removeSem_untouched _ _ _ _ _ _ h')
  · exact key (roundAny_spec f ls le false false) (removeSem_untouched _ _ _ _ _ _ h')
  · exact key (roundAny_spec f ls le true false) (removeSem_untouched _ _ _ _ _ _ h')
  · exact key (roundUp_spec f ls le) (removeSem_untouched _ _ _ _ _ _ h')
  · exact key (roundDown_spec f ls le) (removeSem_untouched _ _ _ _ _ _ h')
  · exact key (roundBest_spec f ls le) (roundBestSem_untouched _ _ _ _ h')

theorem C51_untouched_round (f : BDD m) (l : Nat) (h : ∀ v ∈ f.supportIndices, v < l) :
    roundBdd f l = .ok f := by
  obtain ⟨r, hr, hs⟩ := roundBdd_spec f l
  rw [hr]
  congr 1
  apply BDD.ext_eval
  intro x
  rw [hs x, roundSem_untouched _ _ _ (fun v hv => h v (by
    unfold BDD.supportIndices; rw [List.mem_dedup]; exact hv))]
  rfl

example : ∀ v ∈ ((BDD.var 0 : BDD Mgr.id).xor (.var 3)).supportIndices, v < 1 ∨ 2 < v := by
  decide +kernel

/-! ## C52: majority rounding -/

theorem C52_round_bdd (hm : m.Mono) (f : BDD m) (N : Nat) (hN : Fits N [f]) (l : Nat) :
    ∃ r, roundBdd f l = .ok r ∧
      (∀ x y : Asg, (∀ v < l, x v = y v) → r.eval x = r.eval y) ∧
      (∀ x, r.eval x = true ↔ onSet N (fun y => f.eval (mix l x y)) > 1 / 2) ∧
      (∀ g : Asg → Bool, (∀ x y : Asg, (∀ v < l, x v = y v) → g x = g y) →
        errRate N f.eval r.eval ≤ errRate N f.eval g) ∧
      errRate N f.eval r.eval ≤ 1 / 2 := by
  obtain ⟨r, hr, hs⟩ := roundBdd_spec f l
  have hv : ∀ v ∈ f.edge.n.vars, v < N := fun v hv => hN f (by simp) v (by
    unfold BDD.supportIndices; rw [List.mem_dedup]; exact hv)
  have hmaj : ∀ x, r.eval x = decide (onSet N (fun y => f.eval (mix l x y)) > 1 / 2) := fun x => by
    rw [hs x, roundSem_eq hm N l f.edge.n f.wf hv]
    rfl
  have hdep : ∀ x y : Asg, (∀ v < l, x v = y v) → r.eval x = r.eval y := by
    intro x y h
    rw [hmaj, hmaj]
    have : ∀ z, mix l x z = mix l y z := fun z => by
      funext v
      simp only [mix]
      split
      · exact h v (by assumption)
      · rfl
    simp only [this]
  have hloc : ∀ (g : Asg → Bool), (∀ x y : Asg, (∀ v < l, x v = y v) → g x = g y) → ∀ x,
      mean N (fun y => ind (f.eval (mix l x y) ^^ g (mix l x y))) =
        if g x then 1 - onSet N (fun y => f.eval (mix l x y))
        else onSet N (fun y => f.eval (mix l x y)) := by
    intro g hg x
    have : ∀ y, g (mix l x y) = g x := fun y => hg _ _ (fun v hv => by simp [mix, hv])
    simp only [this]
    cases g x
    · simp [onSet_eq]
    · simp [onSet_eq, mean_ind_not]
  have hopt : ∀ g : Asg → Bool, (∀ x y : Asg, (∀ v < l, x v = y v) → g x = g y) →
        errRate N f.eval r.eval ≤ errRate N f.eval g := by
    intro g hg
    rw [errRate_eq, errRate_eq, mean_tower N l, mean_tower N l (fun x => ind (f.eval x ^^ g x))]
    apply mean_mono
    intro x
    rw [hloc r.eval hdep, hloc g hg, hmaj x]
    by_cases h : onSet N (fun y => f.eval (mix l x y)) > 1 / 2
    · simp only [h, decide_true, if_true]
      split <;> linarith
    · simp only [h, decide_false, Bool.false_eq_true, if_false]
      split <;> linarith
  refine ⟨r, hr, hdep, fun x => by rw [hmaj]; simp, hopt, ?_⟩
  -- one of the two constants has error at most 1/2
  have h0 := hopt (fun _ => false) (fun _ _ _ => rfl)
  have h1 := hopt (fun _ => true) (fun _ _ _ => rfl)
  rw [errRate_eq N f.eval (fun _ => false)] at h0
  rw [errRate_eq N f.eval (fun _ => true)] at h1
  simp only [Bool.xor_false, Bool.xor_true, mean_ind_not] at h0 h1
  linarith

/-- Rounding `x0 ∨ x1` at level 1 gives `x0`: the children of the root have ON-sets 1 and 1/2. -/
example : (roundBdd ((BDD.var 0 : BDD Mgr.id).or (.var 1)) 1).toOption.map (·.edge) =
    some (BDD.var 0 : BDD Mgr.id).edge ∧ Fits 2 [(BDD.var 0 : BDD Mgr.id).or (.var 1)] := by
  decide +kernel

/-! ## C53: `round_best` -/

/-- Without ties one child is replaced and the local error is least possible among all the
replacements of one child by a terminal. -/
theorem C53_round_best_partial (hm : m.Mono) (f : BDD m) (N : Nat) (hN : Fits N [f]) (j : Nat)
    (hj : j < N) : ∃ r, roundBest f j j = .ok r ∧ ∀ x,
      (¬ DepAt f.eval j x → r.eval x = f.eval x) ∧
      (DepAt f.eval j x →
        onSet N (cofAt f.eval j x true) ≠ onSet N (cofAt f.eval j x false) →
        onSet N (cofAt f.eval j x true) + onSet N (cofAt f.eval j x false) ≠ 1 →
        OneChildReplaced f.eval r.eval j x ∧
        ∀ h : Asg → Bool, OneChildReplaced f.eval h j x →
          localErr N f.eval r.eval j x ≤ localErr N f.eval h j x) := by
  obtain ⟨r, hr, hs⟩ := roundBest_level hm f N hN j
  refine ⟨r, hr, fun x => ⟨(hs x).2, fun hd hne hne1 => ?_⟩⟩
  obtain ⟨h1, h2⟩ := (localErr_best N f.eval r.eval j hj x ((hs x).1 hd)).1 hne hne1
  exact ⟨h1, fun h hh => le_trans h2 (competitor_bound N f.eval h j hj x hh)⟩

/-- In all cases, ties included, the error rate is at most twice that of any function that replaces
one child by a terminal wherever the function depends on `j`. -/
theorem C53_round_best_factor_two (hm : m.Mono) (f : BDD m) (N : Nat) (hN : Fits N [f]) (j : Nat)
    (hj : j < N) : ∃ r, roundBest f j j = .ok r ∧
      ∀ h : Asg → Bool, (∀ x, DepAt f.eval j x → OneChildReplaced f.eval h j x) →
        errRate N f.eval r.eval ≤ 2 * errRate N f.eval h := by
  obtain ⟨r, hr, hs⟩ := roundBest_level hm f N hN j
  refine ⟨r, hr, fun h hh => ?_⟩
  rw [errRate_tower N j, errRate_tower N j f.eval h, ← mean_mul_left]
  apply mean_mono
  intro x
  by_cases hd : DepAt f.eval j x
  · have h1 := (localErr_best N f.eval r.eval j hj x ((hs x).1 hd)).2
    have h2 := competitor_bound N f.eval h j hj x (hh x hd)
    linarith
  · have : localErr N f.eval r.eval j x = 0 := by
      rw [localErr, errRate_eq]
      apply mean_xor_self
      funext y
      have : ¬ DepAt f.eval j (mix j x y) := by
        rintro ⟨z, hz⟩
        exact hd ⟨z, by simpa only [cofAt, mix_mix] using hz⟩
      exact (hs _).2 this
    rw [this]
    have : 0 ≤ localErr N f.eval h j x := by
      rw [localErr, errRate_eq]; exact (mean_ind_bounds N _).1
    linarith

/-- In a tie the least error is missed: for `x0 xor x1` at level 0 both children become constants
and the error is 1/2, while replacing only the then-child gives 1/4. -/
theorem C53_round_best_false : ¬ ∀ (f : BDD Mgr.id) (N : Nat), Fits N [f] → ∀ j < N,
    ∃ r, roundBest f j j = .ok r ∧
      ∀ h : Asg → Bool, (∀ x, DepAt f.eval j x → OneChildReplaced f.eval h j x) →
        errRate N f.eval r.eval ≤ errRate N f.eval h := by
  intro hall
  obtain ⟨r, hr, hb⟩ := hall ((BDD.var 0).xor (.var 1)) 2 fits_xor01' 0 (by omega)
  have hr' : (roundBest ((BDD.var 0 : BDD Mgr.id).xor (.var 1)) 0 0).toOption.map (·.edge) =
      some (BDD.zero : BDD Mgr.id).edge := by decide +kernel
  rw [hr] at hr'
  have he : r = BDD.zero := BDD.ext_edge (by simpa [Except.toOption] using hr')
  subst he
  have := hb (fun x => !x 0 && x 1) (fun x _ => ⟨true, false, fun y => by simp [cofAt],
    funext fun y => by simp [cofAt, mix]⟩)
  revert this
  simp only [errRate, mean, BDD.eval_zero, BDD.eval_xor, BDD.eval_var]
  decide +kernel

/-- A function without tie: the children of `x0 ∧ x1` at level 0 have ON-sets 1/2 and 0. -/
example : Fits 2 [(BDD.var 0 : BDD Mgr.id).and (.var 1)] ∧ ∀ x,
    DepAt ((BDD.var 0 : BDD Mgr.id).and (.var 1)).eval 0 x ∧
    onSet 2 (cofAt ((BDD.var 0 : BDD Mgr.id).and (.var 1)).eval 0 x true) ≠
      onSet 2 (cofAt ((BDD.var 0 : BDD Mgr.id).and (.var 1)).eval 0 x false) ∧
    onSet 2 (cofAt ((BDD.var 0 : BDD Mgr.id).and (.var 1)).eval 0 x true) +
      onSet 2 (cofAt ((BDD.var 0 : BDD Mgr.id).and (.var 1)).eval 0 x false) ≠ 1 := by
  refine ⟨by decide +kernel, fun x => ?_⟩
  have h1 : cofAt ((BDD.var 0 : BDD Mgr.id).and (.var 1)).eval 0 x true = fun y => y 1 := by
    funext y; simp [cofAt, mix]
  have h2 : cofAt ((BDD.var 0 : BDD Mgr.id).and (.var 1)).eval 0 x false = fun _ => false := by
    funext y; simp [cofAt]
  have e1 : onSet 2 (fun y => y 1) = 1 / 2 := by simp only [onSet, mean]; decide +kernel
  have e2 : onSet 2 (fun _ => false) = 0 := by rw [onSet_const]; rfl
  refine ⟨⟨fun _ => true, by rw [h1, h2]; simp⟩, ?_, ?_⟩
  · rw [h1, h2, e1, e2]; norm_num
  · rw [h1, h2, e1, e2]; norm_num

/-! ## C54: idempotence -/

theorem C54_subset_light_child_idempotent (hm : m.Mono) (f : BDD m) (j : Nat) :
    ∃ r, subsetLightChild f j j = .ok r ∧ subsetLightChild r j j = .ok r := by
  obtain ⟨r, hr, _⟩ := roundAny_spec f j j false true
  obtain ⟨N, hN⟩ := exists_fits [f, r]
  have hNf : Fits N [f] := fun b hb => hN b (by simp only [List.mem_singleton] at hb; simp [hb])
  have hNr : Fits N [r] := fun b hb => hN b (by simp only [List.mem_singleton] at hb; simp [hb])
  obtain ⟨r', hr', hs⟩ := C50_subset_light_child hm f N hNf j j
  obtain rfl : r = r' := by
    have : (Except.ok r : Except Fault (BDD m)) = .ok r' := by rw [← hr, ← hr']; rfl
    exact Except.ok.inj this
  refine ⟨r, hr, ?_⟩
  obtain ⟨r2, hr2, hs2⟩ := C50_subset_light_child hm r N hNr j j
  rw [hr2]
  congr 1
  apply BDD.ext_eval
  intro x
  by_cases hh : HitAt (onSet N) false j j r.eval x
  · rw [(hs2 x).1 hh]
    obtain ⟨hd, hrem⟩ := (hitAt_single _ _ _ _ _).mp hh
    -- the removed child is the one removed before
    by_cases hdf : DepAt f.eval j x
    · obtain ⟨b, hb, hnb⟩ := exists_remBranch (onSet N) false f.eval j x
      obtain ⟨h1, h2⟩ := single_cof hs x hdf b hb hnb
      have hz : onSet N (cofAt r.eval j x b) = 0 := by
        rw [show cofAt r.eval j x b = fun _ => false from funext h1, onSet_const]; rfl
      have hp : 0 < onSet N (cofAt r.eval j x (!b)) := by
        by_contra hcon
        have h0 := onSet_zero (cofAt_fits (BDD.fits_congr hNr) j x (!b)) (not_lt.mp hcon)
        obtain ⟨y, hy⟩ := hd
        apply hy
        cases b
        · rw [h1]; exact h0 y
        · rw [h1]; exact (h0 y).symm
      have hxb : x j = b := by
        unfold RemBranch at hrem
        cases b
        · simp only [Bool.not_false] at hp
          rw [hz] at hrem
          simpa [hp] using hrem
        · simp only [Bool.not_true] at hp
          rw [hz] at hrem
          simpa [hp.le] using hrem
      rw [← cofAt_at r.eval j x, hxb, h1]
    · exfalso
      apply hdf
      obtain ⟨y, hy⟩ := hd
      rw [single_cof_none hs x hdf, single_cof_none hs x hdf] at hy
      exact ⟨y, hy⟩
  · exact (hs2 x).2 hh

theorem C54_superset_heavy_child_idempotent (hm : m.Mono) (f : BDD m) (j : Nat) :
    ∃ r, supersetHeavyChild f j j = .ok r ∧ supersetHeavyChild r j j = .ok r := by
  obtain ⟨r, hr, _⟩ := roundAny_spec f j j true false
  obtain ⟨N, hN⟩ := exists_fits [f, r]
  have hNf : Fits N [f] := fun b hb => hN b (by simp only [List.mem_singleton] at hb; simp [hb])
  have hNr : Fits N [r] := fun b hb => hN b (by simp only [List.mem_singleton] at hb; simp [hb])
  obtain ⟨r', hr', hs⟩ := C50_superset_heavy_child hm f N hNf j j
  obtain rfl : r = r' := by
    have : (Except.ok r : Except Fault (BDD m)) = .ok r' := by rw [← hr, ← hr']; rfl
    exact Except.ok.inj this
  refine ⟨r, hr, ?_⟩
  obtain ⟨r2, hr2, hs2⟩ := C50_superset_heavy_child hm r N hNr j j
  rw [hr2]
  congr 1
  apply BDD.ext_eval
  intro x
  by_cases hh : HitAt (onSet N) true j j r.eval x
  · rw [(hs2 x).1 hh]
    obtain ⟨hd, hrem⟩ := (hitAt_single _ _ _ _ _).mp hh
    by_cases hdf : DepAt f.eval j x
    · obtain ⟨b, hb, hnb⟩ := exists_remBranch (onSet N) true f.eval j x
      obtain ⟨h1, h2⟩ := single_cof hs x hdf b hb hnb
      have hz : onSet N (cofAt r.eval j x b) = 1 := by
        rw [show cofAt r.eval j x b = fun _ => true from funext h1, onSet_const]; rfl
      have hp : onSet N (cofAt r.eval j x (!b)) < 1 := by
        by_contra hcon
        have h0 := onSet_one (cofAt_fits (BDD.fits_congr hNr) j x (!b)) (not_lt.mp hcon)
        obtain ⟨y, hy⟩ := hd
        apply hy
        cases b
        · rw [h1]; exact h0 y
        · rw [h1]; exact (h0 y).symm
      have hxb : x j = b := by
        unfold RemBranch at hrem
        cases b
        · simp only [Bool.not_false] at hp
          rw [hz] at hrem
          simpa [not_lt.mpr hp.le] using hrem
        · simp only [Bool.not_true] at hp
          rw [hz] at hrem
          simpa [hp] using hrem
      rw [← cofAt_at r.eval j x, hxb, h1]
    · exfalso
      apply hdf
      obtain ⟨y, hy⟩ := hd
      rw [single_cof_none hs x hdf, single_cof_none hs x hdf] at hy
      exact ⟨y, hy⟩
  · exact (hs2 x).2 hh

theorem C54_round_bdd_idempotent (hm : m.Mono) (f : BDD m) (l : Nat) :
    ∃ r, roundBdd f l = .ok r ∧ roundBdd r l = .ok r := by
  obtain ⟨N, hN⟩ := exists_fits [f]
  obtain ⟨r, hr, hdep, _⟩ := C52_round_bdd hm f N hN l
  refine ⟨r, hr, C51_untouched_round r l (fun v hv => ?_)⟩
  by_contra hc
  obtain ⟨x, hx⟩ := BDD.mem_supportIndices.mp hv
  exact hx (hdep _ _ (fun w hw => by
    rw [Function.update_of_ne (by omega), Function.update_of_ne (by omega)]))

/-- The other two child operators are not idempotent. -/
theorem C54_others_not_idempotent :
    (∃ (f : BDD Mgr.id) (r r2 : BDD Mgr.id), supersetLightChild f 0 0 = .ok r ∧
      supersetLightChild r 0 0 = .ok r2 ∧ r ≠ r2) ∧
    (∃ (f : BDD Mgr.id) (r r2 : BDD Mgr.id), subsetHeavyChild f 0 0 = .ok r ∧
      subsetHeavyChild r 0 0 = .ok r2 ∧ r ≠ r2) := by
  constructor
  · obtain ⟨r, hr, -⟩ := roundAny_spec ((BDD.var 0 : BDD Mgr.id).and (.var 1)) 0 0 false false
    obtain ⟨r2, hr2, -⟩ := roundAny_spec r 0 0 false false
    refine ⟨_, r, r2, hr, hr2, ?_⟩
    have h : (do
        let r ← supersetLightChild ((BDD.var 0 : BDD Mgr.id).and (.var 1)) 0 0
        let r2 ← supersetLightChild r 0 0
        .ok (r.edge, r2.edge) : Except Fault (Edge × Edge)).toOption.map (fun p => decide (p.1 = p.2))
        = some false := by decide +kernel
    simp only [supersetLightChild, hr, hr2, bind, Except.bind, Except.toOption, Option.map_some,
      Option.some.injEq, decide_eq_false_iff_not] at h
    exact fun e => h (by rw [e])
  · obtain ⟨r, hr, -⟩ := roundAny_spec ((BDD.var 0 : BDD Mgr.id).or (.var 1)) 0 0 true true
    obtain ⟨r2, hr2, -⟩ := roundAny_spec r 0 0 true true
    refine ⟨_, r, r2, hr, hr2, ?_⟩
    have h : (do
        let r ← subsetHeavyChild ((BDD.var 0 : BDD Mgr.id).or (.var 1)) 0 0
        let r2 ← subsetHeavyChild r 0 0
        .ok (r.edge, r2.edge) : Except Fault (Edge × Edge)).toOption.map (fun p => decide (p.1 = p.2))
        = some false := by decide +kernel
    simp only [subsetHeavyChild, hr, hr2, bind, Except.bind, Except.toOption, Option.map_some,
      Option.some.injEq, decide_eq_false_iff_not] at h
    exact fun e => h (by rw [e])

example : Mgr.id.Mono ∧ (subsetLightChild ((BDD.var 0 : BDD Mgr.id).or (.var 1)) 0 0).toOption.map
    (·.edge) = some (BDD.var 0 : BDD Mgr.id).edge := ⟨Mgr.id_mono, by decide +kernel⟩

/-! ## C72: which child `round_up` and `round_down` remove -/

/-- The child with fewer solutions, counted over the variables from the child's own first variable
to the terminal level: `2^(tl - firstVar)` times the ON-set. -/
theorem C72_round_up_partial (hm : m.Mono) (f : BDD m) (ls le tl : Nat)
    (htl : tl = terminalLevel [[f]]) (h64 : tl ≤ 2 ^ 64) :
    ∃ r, roundUp f ls le = .ok r ∧ ∀ x,
      (HitAt (fun g => onSet tl g * 2 ^ (tl - firstVar tl g)) false ls le f.eval x →
        r.eval x = true) ∧
      (¬ HitAt (fun g => onSet tl g * 2 ^ (tl - firstVar tl g)) false ls le f.eval x →
        r.eval x = f.eval x) := by
  obtain ⟨r, hr, hs⟩ := roundUp_spec f ls le
  refine ⟨r, hr, fun x => ?_⟩
  subst htl
  have := removeSem_eq hm (terminalLevel [[f]]) (solWeight (terminalLevel [[f]])) (solPure f)
    (fun a ha hv => solPure_weight hm f h64 a ha hv) ls le false false f.edge.n f.wf
    (fun v hv => terminalLevel_gt (f := [f]) (by simp) (b := f) (by simp) (by
      unfold BDD.supportIndices; rw [List.mem_dedup]; exact hv)) f.edge.neg x
  rw [hs x]
  exact this

theorem C72_round_down_partial (hm : m.Mono) (f : BDD m) (ls le tl : Nat)
    (htl : tl = terminalLevel [[f]]) (h64 : tl ≤ 2 ^ 64) :
    ∃ r, roundDown f ls le = .ok r ∧ ∀ x,
      (HitAt (fun g => onSet tl g * 2 ^ (tl - firstVar tl g)) false ls le f.eval x →
        r.eval x = false) ∧
      (¬ HitAt (fun g => onSet tl g * 2 ^ (tl - firstVar tl g)) false ls le f.eval x →
        r.eval x = f.eval x) := by
  obtain ⟨r, hr, hs⟩ := roundDown_spec f ls le
  refine ⟨r, hr, fun x => ?_⟩
  subst htl
  have := removeSem_eq hm (terminalLevel [[f]]) (solWeight (terminalLevel [[f]])) (solPure f)
    (fun a ha hv => solPure_weight hm f h64 a ha hv) ls le false true f.edge.n f.wf
    (fun v hv => terminalLevel_gt (f := [f]) (by simp) (b := f) (by simp) (by
      unfold BDD.supportIndices; rw [List.mem_dedup]; exact hv)) f.edge.neg x
  rw [hs x]
  exact this

/-- The smaller ON-set is not what decides: in `x0 ? x3 : (x1 ∧ ¬x2)`-like functions the child that
starts later counts fewer solutions although its ON-set is larger. -/
theorem C72_round_down_false : ¬ ∀ (f : BDD Mgr.id) (N : Nat), Fits N [f] → ∀ j,
    ∃ r, roundDown f j j = .ok r ∧ ∀ x,
      (HitAt (onSet N) false j j f.eval x → r.eval x = false) ∧
      (¬ HitAt (onSet N) false j j f.eval x → r.eval x = f.eval x) := by
  intro hall
  obtain ⟨r, hr, hb⟩ := hall (BDD.ite (.var 0) (.var 3) ((BDD.var 1).and (.var 2))) 4
    (by decide +kernel) 0
  have hr' : (roundDown (BDD.ite (.var 0) (.var 3) ((BDD.var 1 : BDD Mgr.id).and (.var 2))) 0 0
      ).toOption.map (·.edge) = some ((BDD.var 0 : BDD Mgr.id).not.and ((BDD.var 1).and (.var 2))).edge := by
    decide +kernel
  rw [hr] at hr'
  have he : r = (BDD.var 0 : BDD Mgr.id).not.and ((BDD.var 1).and (.var 2)) :=
    BDD.ext_edge (by simpa [Except.toOption] using hr')
  subst he
  have := (hb (fun _ => true)).2 (by
    rw [hitAt_single]
    rintro ⟨_, h⟩
    unfold RemBranch at h
    have h1 : cofAt (BDD.ite (.var 0) (.var 3) ((BDD.var 1 : BDD Mgr.id).and (.var 2))).eval 0
        (fun _ => true) true = fun y => y 3 := by funext y; simp [cofAt, mix]
    have h2 : cofAt (BDD.ite (.var 0) (.var 3) ((BDD.var 1 : BDD Mgr.id).and (.var 2))).eval 0
        (fun _ => true) false = fun y => y 1 && y 2 := by funext y; simp [cofAt, mix]
    rw [h1, h2] at h
    have e1 : onSet 4 (fun y => y 3) = 1 / 2 := by simp only [onSet, mean]; decide +kernel
    have e2 : onSet 4 (fun y => y 1 && y 2) = 1 / 4 := by simp only [onSet, mean]; decide +kernel
    rw [e1, e2] at h
    norm_num at h)
  simp at this

example : Mgr.id.Mono ∧
    terminalLevel [[BDD.ite (.var 0) (.var 3) ((BDD.var 1 : BDD Mgr.id).and (.var 2))]] = 4 :=
  ⟨Mgr.id_mono, by decide +kernel⟩

/-! ## C73: how much a single-level operator can remove -/

theorem C73_subset_light_keeps_half (hm : m.Mono) (f : BDD m) (N : Nat) (hN : Fits N [f]) (j : Nat)
    (hj : j < N) : ∃ r, subsetLightChild f j j = .ok r ∧
      onSet N f.eval / 2 ≤ onSet N r.eval ∧ errRate N f.eval r.eval ≤ onSet N f.eval / 2 := by
  obtain ⟨r, hr, hs⟩ := C50_subset_light_child_level hm f N hN j
  obtain ⟨r0, hr0, hsub⟩ := (C48_subset_operators f j j).1
  obtain rfl : r = r0 := by
    have : (Except.ok r : Except Fault (BDD m)) = .ok r0 := by rw [← hr, ← hr0]
    exact Except.ok.inj this
  have h1 : onSet N f.eval / 2 ≤ onSet N r.eval := by
    have half : ∀ q : Asg → ℚ, mean N q / 2 = mean N (fun x => q x / 2) := by
      intro q
      have := mean_mul_right N (1 / 2) q
      simp only [div_eq_mul_inv, one_mul] at this ⊢
      exact this.symm
    rw [onSet_eq, onSet_eq, mean_tower N j, mean_tower N j (fun x => ind (r.eval x)), half]
    apply mean_mono
    intro x
    by_cases hd : DepAt f.eval j x
    · rw [mean_mix_split N j hj (fun z => ind (f.eval z)), mean_mix_split N j hj
        (fun z => ind (r.eval z))]
      change (onSet N (cofAt f.eval j x true) + onSet N (cofAt f.eval j x false)) / 2 / 2 ≤
        (onSet N (cofAt r.eval j x true) + onSet N (cofAt r.eval j x false)) / 2
      obtain ⟨b, hle, hz, hk⟩ := (hs x).1 hd
      have h0 : onSet N (cofAt r.eval j x b) = 0 := by
        rw [show cofAt r.eval j x b = fun _ => false from funext hz, onSet_const]; rfl
      cases b
      · simp only [Bool.not_false] at hle hk
        rw [h0, hk]; linarith
      · simp only [Bool.not_true] at hle hk
        rw [h0, hk]; linarith
    · have heq : ∀ y, r.eval (mix j x y) = f.eval (mix j x y) := fun y => (hs _).2 (by
        rintro ⟨z, hz⟩
        exact hd ⟨z, by simpa only [cofAt, mix_mix] using hz⟩)
      simp only [heq]
      have := (mean_ind_bounds N (fun y => f.eval (mix j x y))).1
      linarith
  refine ⟨r, hr, h1, ?_⟩
  have : errRate N f.eval r.eval = onSet N f.eval - onSet N r.eval := by
    rw [errRate_eq, onSet_eq, onSet_eq, ← mean_sub]
    apply mean_congr
    intro x
    have := hsub x
    cases h2 : f.eval x <;> cases h3 : r.eval x <;> simp_all
  linarith

end Verif

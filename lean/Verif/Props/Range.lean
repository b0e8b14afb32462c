import Verif.Proofs.Range
import Verif.Props.Operators

/-!
# Rounding a range of levels: C73 (ranges), C99, C100

`/repo/src/approximation_operators/approximation_operators.cpp`, as used by the experiments with the last level
10000.
-/

namespace Verif

variable {m : Mgr}

/-! ## C73 over a range (any variable order) -/

/-- `subset_light_child` keeps half of the ON-set per level of the range. -/
theorem C73_subset_light_range (f : BDD m) (N : Nat) (hN : Fits N [f]) (ls le : Nat) :
    ∃ r, subsetLightChild f ls le = .ok r ∧
      onSet N f.eval / 2 ^ (le + 1 - ls) ≤ onSet N r.eval ∧
      errRate N f.eval r.eval ≤ onSet N f.eval * (1 - 1 / 2 ^ (le + 1 - ls)) := by
  obtain ⟨r, hr, hs⟩ := roundAny_spec f ls le false true
  have h := removeSem_keeps N ls le true f.edge.n f.wf
    (fun v hv => hN f (by simp) v (by unfold BDD.supportIndices; rw [List.mem_dedup]; exact hv)) f.edge.neg
    (Finset.Icc ls le) (fun v _ h1 h2 => Finset.mem_Icc.mpr ⟨h1, h2⟩)
  rw [valSet_true, valSet_true, Nat.card_Icc] at h
  have h1 : onSet N f.eval / 2 ^ (le + 1 - ls) ≤ onSet N r.eval := by
    rw [show r.eval = removeSem Edge.frac ls le false true f.edge.n f.edge.neg from funext hs]
    exact h
  refine ⟨r, hr, h1, ?_⟩
  have : errRate N f.eval r.eval = onSet N f.eval - onSet N r.eval := by
    rw [errRate_eq, onSet_eq, onSet_eq, ← mean_sub]
    apply mean_congr
    intro x
    have : r.eval x = true → f.eval x = true := fun hx => removeSem_subset _ _ _ _ _ _ _ (hs x ▸ hx)
    cases h2 : f.eval x <;> cases h3 : r.eval x <;> simp_all
  rw [this, mul_sub, mul_one, mul_one_div]
  linarith

/-- `superset_heavy_child` keeps half of the OFF-set per level of the range. -/
theorem C73_superset_heavy_range (f : BDD m) (N : Nat) (hN : Fits N [f]) (ls le : Nat) :
    ∃ r, supersetHeavyChild f ls le = .ok r ∧
      (1 - onSet N f.eval) / 2 ^ (le + 1 - ls) ≤ 1 - onSet N r.eval ∧
      errRate N f.eval r.eval ≤ (1 - onSet N f.eval) * (1 - 1 / 2 ^ (le + 1 - ls)) := by
  obtain ⟨r, hr, hs⟩ := roundAny_spec f ls le true false
  have h := removeSem_keeps N ls le false f.edge.n f.wf
    (fun v hv => hN f (by simp) v (by unfold BDD.supportIndices; rw [List.mem_dedup]; exact hv)) f.edge.neg
    (Finset.Icc ls le) (fun v _ h1 h2 => Finset.mem_Icc.mpr ⟨h1, h2⟩)
  rw [valSet_false, valSet_false, Nat.card_Icc] at h
  have h1 : (1 - onSet N f.eval) / 2 ^ (le + 1 - ls) ≤ 1 - onSet N r.eval := by
    rw [show r.eval = removeSem Edge.frac ls le true false f.edge.n f.edge.neg from funext hs]
    exact h
  refine ⟨r, hr, h1, ?_⟩
  have : errRate N f.eval r.eval = onSet N r.eval - onSet N f.eval := by
    rw [errRate_eq, onSet_eq, onSet_eq, ← mean_sub]
    apply mean_congr
    intro x
    have : f.eval x = true → r.eval x = true := fun hx => by rw [hs]; exact removeSem_superset _ _ _ _ _ _ _ hx
    cases h2 : f.eval x <;> cases h3 : r.eval x <;> simp_all
  rw [this, mul_sub, mul_one, mul_one_div]
  linarith

/-- The bounds are attained: of the four solutions of a parity, rounding two levels leaves one (resp. adds three). -/
example : Fits 3 [(BDD.var 0 : BDD Mgr.id).xor ((BDD.var 1).xor (.var 2))] ∧
    ((subsetLightChild ((BDD.var 0 : BDD Mgr.id).xor ((BDD.var 1).xor (.var 2))) 0 1).toOption.map
      (fun r => r.edge.frac)) = some (1 / 2 / 2 ^ 2) ∧
    ((supersetHeavyChild ((BDD.var 0 : BDD Mgr.id).xor ((BDD.var 1).xor (.var 2))) 0 1).toOption.map
      (fun r => 1 - r.edge.frac)) = some (1 / 2 / 2 ^ 2) := by decide +kernel

/-! ## C99 the roundings for light and heavy children do not end in a constant (any variable order) -/

theorem C99_subset_light_satisfiable (f : BDD m) (ls le : Nat) :
    ∃ r, subsetLightChild f ls le = .ok r ∧ ((∃ x, r.eval x = true) ↔ ∃ x, f.eval x = true) := by
  obtain ⟨r, hr, hs⟩ := roundAny_spec f ls le false true
  refine ⟨r, hr, ?_⟩
  simp only [hs]
  exact removeSem_alive ls le true f.edge.n f.wf f.edge.neg

theorem C99_superset_heavy_falsifiable (f : BDD m) (ls le : Nat) :
    ∃ r, supersetHeavyChild f ls le = .ok r ∧ ((∃ x, r.eval x = false) ↔ ∃ x, f.eval x = false) := by
  obtain ⟨r, hr, hs⟩ := roundAny_spec f ls le true false
  refine ⟨r, hr, ?_⟩
  simp only [hs]
  exact removeSem_alive ls le false f.edge.n f.wf f.edge.neg

/-- The same below any values of the variables before the range. -/
theorem C99_subset_light_prefix (hm : m.Mono) (f : BDD m) (ls le : Nat) :
    ∃ r, subsetLightChild f ls le = .ok r ∧
      ∀ x, (∃ y, r.eval (mix ls x y) = true) ↔ ∃ y, f.eval (mix ls x y) = true := by
  obtain ⟨r, hr, hs⟩ := roundAny_spec f ls le false true
  refine ⟨r, hr, fun x => ?_⟩
  obtain ⟨d', neg', a1, -, a3, a4⟩ := removeSem_residual hm Edge.frac ls le false true f.edge.n f.wf x f.edge.neg
  simp only [hs, a4]
  refine (removeSem_alive ls le true d' a1 neg').trans ?_
  exact exists_congr fun y => by rw [← a3]; rfl

theorem C99_superset_heavy_prefix (hm : m.Mono) (f : BDD m) (ls le : Nat) :
    ∃ r, supersetHeavyChild f ls le = .ok r ∧
      ∀ x, (∃ y, r.eval (mix ls x y) = false) ↔ ∃ y, f.eval (mix ls x y) = false := by
  obtain ⟨r, hr, hs⟩ := roundAny_spec f ls le true false
  refine ⟨r, hr, fun x => ?_⟩
  obtain ⟨d', neg', a1, -, a3, a4⟩ := removeSem_residual hm Edge.frac ls le true false f.edge.n f.wf x f.edge.neg
  simp only [hs, a4]
  refine (removeSem_alive ls le false d' a1 neg').trans ?_
  exact exists_congr fun y => by rw [← a3]; rfl

/-- The other two operators can remove all solutions of a satisfiable function, and all non-solutions of one that is
not a tautology. -/
theorem C99_others_constant : (∃ f r : BDD Mgr.id, subsetHeavyChild f 0 1 = .ok r ∧ (∃ x, f.eval x = true) ∧
      ∀ x, r.eval x = false) ∧
    ∃ f r : BDD Mgr.id, supersetLightChild f 0 1 = .ok r ∧ (∃ x, f.eval x = false) ∧ ∀ x, r.eval x = true := by
  constructor
  · obtain ⟨r, hr, -⟩ := roundAny_spec ((BDD.var 0 : BDD Mgr.id).or (.var 1)) 0 1 true true
    have h : (subsetHeavyChild ((BDD.var 0 : BDD Mgr.id).or (.var 1)) 0 1).toOption.map (·.edge) =
      some (BDD.zero : BDD Mgr.id).edge := by decide +kernel
    refine ⟨_, r, hr, ⟨fun _ => true, by decide +kernel⟩, fun x => ?_⟩
    rw [show subsetHeavyChild ((BDD.var 0 : BDD Mgr.id).or (.var 1)) 0 1 = .ok r from hr] at h
    have : r.edge = (BDD.zero : BDD Mgr.id).edge := Option.some.inj h
    rw [BDD.eval, this]
    rfl
  · obtain ⟨r, hr, -⟩ := roundAny_spec ((BDD.var 0 : BDD Mgr.id).or (.var 1)) 0 1 false false
    have h : (supersetLightChild ((BDD.var 0 : BDD Mgr.id).or (.var 1)) 0 1).toOption.map (·.edge) =
      some (BDD.one : BDD Mgr.id).edge := by decide +kernel
    refine ⟨_, r, hr, ⟨fun _ => false, by decide +kernel⟩, fun x => ?_⟩
    rw [show supersetLightChild ((BDD.var 0 : BDD Mgr.id).or (.var 1)) 0 1 = .ok r from hr] at h
    have : r.edge = (BDD.one : BDD Mgr.id).edge := Option.some.inj h
    rw [BDD.eval, this]
    rfl

example : Mgr.id.Mono ∧ (subsetLightChild ((BDD.var 0 : BDD Mgr.id).xor ((BDD.var 1).and (.var 2))) 1 5).toOption =
    some (BDD.ite (.var 0) (.not (.var 1)) ((BDD.var 1).and (.var 2))) := ⟨Mgr.id_mono, by decide +kernel⟩

/-! ## C100 rounding all the way down -/

/-- `g` is `fill` except on the inputs that agree with the literals, where it is `z`. -/
def IsPath (ls N : Nat) (fill z : Bool) (lits : List (Nat × Bool)) (g : Asg → Bool) : Prop :=
  (lits.map Prod.fst).Nodup ∧ (∀ p ∈ lits, ls ≤ p.1 ∧ p.1 < N) ∧
    ∀ y : Asg, g y = if ∀ p ∈ lits, y p.1 = p.2 then z else fill

theorem round_path (hm : m.Mono) (f : BDD m) (N : Nat) (hN : Fits N [f]) (ls le : Nat) (hle : N ≤ le + 1)
    (heavy subset : Bool) : ∃ r, roundAny f ls le heavy subset = .ok r ∧
      (∀ x, r.eval x = removeSem Edge.frac ls le heavy subset f.edge.n f.edge.neg x) ∧
      ∀ x, ∃ lits z, IsPath ls N (!subset) z lits (fun y => r.eval (mix ls x y)) := by
  obtain ⟨r, hr, hs⟩ := roundAny_spec f ls le heavy subset
  refine ⟨r, hr, hs, fun x => ?_⟩
  have hv : ∀ v ∈ f.edge.n.vars, v < N :=
    fun v hv => hN f (by simp) v (by unfold BDD.supportIndices; rw [List.mem_dedup]; exact hv)
  obtain ⟨d', neg', a1, a2, -, a4⟩ := removeSem_residual hm Edge.frac ls le heavy subset f.edge.n f.wf x f.edge.neg
  obtain ⟨lits, z, b1, b2, b3⟩ := removeSem_chain Edge.frac ls le heavy subset d' a1
    (fun v h => ⟨(a2 v h).2, by have := hv v (a2 v h).1; omega⟩) neg'
  exact ⟨lits, z, b1, fun p hp => ⟨(a2 _ (b2 p hp)).2, hv _ (a2 _ (b2 p hp)).1⟩, fun y => by dsimp only; rw [hs, a4, b3]⟩

/-- Rounding all levels from `ls` on leaves, below any values of the variables before, a constant or a single cube
(`subset_…`) or the complement of one (`superset_…`). -/
theorem C100_single_path (hm : m.Mono) (f : BDD m) (N : Nat) (hN : Fits N [f]) (ls le : Nat) (hle : N ≤ le + 1) :
    (∃ r, subsetLightChild f ls le = .ok r ∧ ∀ x, ∃ lits z, IsPath ls N false z lits (fun y => r.eval (mix ls x y))) ∧
    (∃ r, subsetHeavyChild f ls le = .ok r ∧ ∀ x, ∃ lits z, IsPath ls N false z lits (fun y => r.eval (mix ls x y))) ∧
    (∃ r, supersetLightChild f ls le = .ok r ∧ ∀ x, ∃ lits z, IsPath ls N true z lits (fun y => r.eval (mix ls x y))) ∧
    (∃ r, supersetHeavyChild f ls le = .ok r ∧ ∀ x, ∃ lits z, IsPath ls N true z lits (fun y => r.eval (mix ls x y))) := by
  refine ⟨?_, ?_, ?_, ?_⟩
  · obtain ⟨r, h1, -, h2⟩ := round_path hm f N hN ls le hle false true
    exact ⟨r, h1, h2⟩
  · obtain ⟨r, h1, -, h2⟩ := round_path hm f N hN ls le hle true true
    exact ⟨r, h1, h2⟩
  · obtain ⟨r, h1, -, h2⟩ := round_path hm f N hN ls le hle false false
    exact ⟨r, h1, h2⟩
  · obtain ⟨r, h1, -, h2⟩ := round_path hm f N hN ls le hle true false
    exact ⟨r, h1, h2⟩

/-- For `subset_light_child` this is a cube of solutions of `f`, one input in `2 ^ k` with `k` at most the number of
variables left, unless `f` has no solution there. -/
theorem C100_subset_light (hm : m.Mono) (f : BDD m) (N : Nat) (hN : Fits N [f]) (ls le : Nat) (hle : N ≤ le + 1) :
    ∃ r, subsetLightChild f ls le = .ok r ∧ ∀ x, (∃ y, f.eval (mix ls x y) = true) →
      ∃ lits, IsPath ls N false true lits (fun y => r.eval (mix ls x y)) ∧ lits.length ≤ N - ls ∧
        (∀ y : Asg, (∀ p ∈ lits, y p.1 = p.2) → f.eval (mix ls x y) = true) ∧
        onSet N (fun y => r.eval (mix ls x y)) = 1 / 2 ^ lits.length := by
  obtain ⟨r, hr, hs, hp⟩ := round_path hm f N hN ls le hle false true
  obtain ⟨r', hr', ha⟩ := C99_subset_light_prefix hm f ls le
  obtain rfl : r = r' := Except.ok.inj (hr.symm.trans hr')
  refine ⟨r, hr, fun x hx => ?_⟩
  obtain ⟨lits, z, h1, h2, h3⟩ := hp x
  obtain ⟨y, hy⟩ := (ha x).mpr hx
  have hz : z = true := by
    have := h3 y
    dsimp only at this
    rw [hy] at this
    by_cases hl : ∀ p ∈ lits, y p.1 = p.2
    · rw [if_pos hl] at this
      exact this.symm
    · rw [if_neg hl] at this
      cases this
  subst hz
  refine ⟨lits, ⟨h1, h2, h3⟩, lits_length h1 h2, fun y hl => ?_, ?_⟩
  · have := h3 y
    dsimp only at this
    rw [if_pos hl, hs] at this
    exact removeSem_subset _ _ _ _ _ _ _ this
  · rw [← onSet_lits N lits h1 (fun p hp => (h2 p hp).2)]
    refine congrArg (onSet N) (funext fun y => (h3 y).trans ?_)
    by_cases hl : ∀ p ∈ lits, y p.1 = p.2
    · rw [if_pos hl, decide_eq_true hl]
    · rw [if_neg hl, decide_eq_false hl]
      rfl

/-- For `superset_heavy_child` it is a cube of non-solutions. -/
theorem C100_superset_heavy (hm : m.Mono) (f : BDD m) (N : Nat) (hN : Fits N [f]) (ls le : Nat) (hle : N ≤ le + 1) :
    ∃ r, supersetHeavyChild f ls le = .ok r ∧ ∀ x, (∃ y, f.eval (mix ls x y) = false) →
      ∃ lits, IsPath ls N true false lits (fun y => r.eval (mix ls x y)) ∧ lits.length ≤ N - ls ∧
        (∀ y : Asg, (∀ p ∈ lits, y p.1 = p.2) → f.eval (mix ls x y) = false) ∧
        onSet N (fun y => r.eval (mix ls x y)) = 1 - 1 / 2 ^ lits.length := by
  obtain ⟨r, hr, hs, hp⟩ := round_path hm f N hN ls le hle true false
  obtain ⟨r', hr', ha⟩ := C99_superset_heavy_prefix hm f ls le
  obtain rfl : r = r' := Except.ok.inj (hr.symm.trans hr')
  refine ⟨r, hr, fun x hx => ?_⟩
  obtain ⟨lits, z, h1, h2, h3⟩ := hp x
  obtain ⟨y, hy⟩ := (ha x).mpr hx
  have hz : z = false := by
    have := h3 y
    dsimp only at this
    rw [hy] at this
    by_cases hl : ∀ p ∈ lits, y p.1 = p.2
    · rw [if_pos hl] at this
      exact this.symm
    · rw [if_neg hl] at this
      cases this
  subst hz
  refine ⟨lits, ⟨h1, h2, h3⟩, lits_length h1 h2, fun y hl => ?_, ?_⟩
  · have := h3 y
    dsimp only at this
    rw [if_pos hl, hs] at this
    by_contra hc
    rw [removeSem_superset _ _ _ _ _ _ _ (show Edge.eval ⟨f.edge.neg, f.edge.n⟩ (mix ls x y) = true by
      simpa [BDD.eval] using hc)] at this
    cases this
  · rw [← onSet_lits N lits h1 (fun p hp => (h2 p hp).2), onSet_eq, onSet_eq, ← mean_ind_not]
    refine mean_congr N (fun y => ?_)
    refine (congrArg ind (h3 y)).trans ?_
    by_cases hl : ∀ p ∈ lits, y p.1 = p.2
    · rw [if_pos hl, decide_eq_true hl]
      rfl
    · rw [if_neg hl, decide_eq_false hl]

example : Mgr.id.Mono ∧ Fits 3 [(BDD.var 0 : BDD Mgr.id).xor ((BDD.var 1).xor (.var 2))] ∧ 3 ≤ 10000 + 1 ∧
    (subsetLightChild ((BDD.var 0 : BDD Mgr.id).xor ((BDD.var 1).xor (.var 2))) 1 10000).toOption =
      some (BDD.ite (.var 0) (BDD.not ((BDD.var 1).or (.var 2))) (BDD.and (.not (.var 1)) (.var 2))) :=
  ⟨Mgr.id_mono, by decide +kernel, by decide, by decide +kernel⟩

end Verif

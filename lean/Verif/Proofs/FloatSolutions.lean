import Verif.Proofs.FloatMetrics
import Verif.Proofs.OperatorBest

/-!
# Rounded numbers of solutions, and `round_best` with rounded counts
-/

namespace Verif

variable {m : Mgr} {rnd : ℚ → ℚ}

/-! ### Numbers of solutions -/

/-- The rounded number of solutions, without the memo table. -/
def solF (rnd : ℚ → ℚ) (tl : Nat) (a : Edge) : ℚ := memoPure (solutionStepF rnd tl) a.n a.neg

/-- Multiplying a `double` by a power of two is exact. -/
theorem isDouble_shift {q : ℚ} (hq : IsDouble q) (k : Nat) (h : |q * 2 ^ k| ≤ 2 ^ 1000) : IsDouble (q * 2 ^ k) := by
  obtain ⟨a, e, ha, h1, h2, rfl⟩ := hq
  have hz : ((a : ℚ) * 2 ^ e * 2 ^ k) = a * 2 ^ (e + k) := by
    rw [zpow_add₀ (by norm_num), zpow_natCast]
    ring
  rw [hz] at h ⊢
  by_cases hk : e + k ≤ 970
  · exact ⟨a, e + k, ha, by omega, hk, rfl⟩
  · obtain ⟨i, hi⟩ : ∃ i : Nat, e + k = 970 + i := ⟨(e + k - 970).toNat, by omega⟩
    have hsplit : ((2 : ℚ) ^ (e + k)) = 2 ^ i * 2 ^ (970 : ℤ) := by
      rw [hi, zpow_add₀ (by norm_num), zpow_natCast]
      ring
    have hp : (0 : ℚ) < 2 ^ (970 : ℤ) := zpow_pos (by norm_num) _
    refine ⟨a * 2 ^ i, 970, ?_, by norm_num, le_rfl, ?_⟩
    · have h3 : |(a : ℚ) * 2 ^ i| * 2 ^ (970 : ℤ) ≤ 2 ^ 30 * 2 ^ (970 : ℤ) := by
        have e1 : ((2 : ℚ) ^ 30) * 2 ^ (970 : ℤ) = 2 ^ 1000 := by
          rw [← zpow_natCast, ← zpow_natCast, ← zpow_add₀ (by norm_num)]
          norm_num
        rw [e1]
        refine le_trans (le_of_eq ?_) h
        rw [hsplit, ← mul_assoc, abs_mul (_ * _) (2 ^ (970 : ℤ)), abs_of_pos hp]
      have h4 : |(a : ℚ) * 2 ^ i| ≤ 2 ^ 30 := le_of_mul_le_mul_right h3 hp
      have h5 : |a * 2 ^ i| ≤ 2 ^ 30 := by exact_mod_cast h4
      exact h5.trans (by norm_num)
    · rw [hsplit, Int.cast_mul, Int.cast_pow, Int.cast_ofNat, mul_assoc]

theorem two_pow_one {n : Nat} (h : 1 ≤ n) : (2 : ℚ) ^ (n - 1) + 2 ^ (n - 1) = 2 ^ n := by
  obtain ⟨k, rfl⟩ : ∃ k, n = k + 1 := ⟨n - 1, by omega⟩
  rw [Nat.add_sub_cancel, pow_succ]
  ring

/-- Rounded numbers of solutions are `double`s; the relative error grows by at most one unit per level. -/
theorem solF_rel (h : Nearest rnd) (hm : m.Mono) (tl : Nat) (htl : tl ≤ 1000) (d : DD) (neg : Bool)
    (hwf : d.WF m) (hv : ∀ v ∈ d.vars, v < tl) :
    IsDouble (solF rnd tl ⟨neg, d⟩) ∧ 0 ≤ solF rnd tl ⟨neg, d⟩ ∧ solF rnd tl ⟨neg, d⟩ ≤ 2 ^ (tl - nodeLevel tl d) ∧
    memoPure (solutionStep tl) d neg * (1 - d.height * (1 / 2 ^ 53)) ≤ solF rnd tl ⟨neg, d⟩ ∧
      solF rnd tl ⟨neg, d⟩ ≤ memoPure (solutionStep tl) d neg * (1 + d.height * (1 / 2 ^ 52)) := by
  have htl' : tl ≤ 2 ^ 64 := htl.trans (by norm_num)
  induction d generalizing neg with
  | one => cases neg <;> simp [solF, memoPure, nodeLevel, DD.height, isDouble_one, isDouble_zero]
  | node v t c e iht ihe =>
    have hheight := DD.height_le_of_vars hwf hv
    simp only [DD.height] at hheight
    obtain ⟨ht, he, htb, heb, _⟩ := hwf
    have hvtl : v < tl := hv v (by simp [DD.vars])
    have hvt : ∀ w ∈ t.vars, w < tl := fun w hw => hv w (by simp [DD.vars, hw])
    have hve : ∀ w ∈ e.vars, w < tl := fun w hw => hv w (by simp [DD.vars, hw])
    have lt1 := nodeLevel_gt hm (tl := tl) htb hvtl
    have le1 := nodeLevel_gt hm (tl := tl) heb hvtl
    have lt2 := nodeLevel_le hvt
    have le2 := nodeLevel_le hve
    obtain ⟨k, ek, hk⟩ := solution_nat hm tl htl' t neg ht hvt
    obtain ⟨l, el, hl⟩ := solution_nat hm tl htl' e (neg ^^ c) he hve
    have m1 : (nodeLevel tl t + 2 ^ 64 - v - 1) % 2 ^ 64 = nodeLevel tl t - v - 1 := by omega
    have m2 : (nodeLevel tl e + 2 ^ 64 - v - 1) % 2 ^ 64 = nodeLevel tl e - v - 1 := by omega
    obtain ⟨td, t0, t1, t2, t3⟩ := iht neg ht hvt
    obtain ⟨ed, e0, e1, e2, e3⟩ := ihe (neg ^^ c) he hve
    have es : solF rnd tl ⟨neg, .node v t c e⟩ = rnd (rnd (solF rnd tl ⟨neg, t⟩ * 2 ^ (nodeLevel tl t - v - 1)) +
        rnd (solF rnd tl ⟨neg ^^ c, e⟩ * 2 ^ (nodeLevel tl e - v - 1))) := by
      rw [← m1, ← m2]
      rfl
    have ep : memoPure (solutionStep tl) (.node v t c e) neg =
        (k : ℚ) * 2 ^ (nodeLevel tl t - v - 1) + l * 2 ^ (nodeLevel tl e - v - 1) := by
      rw [← ek, ← el, ← m1, ← m2]
      rfl
    rw [ek] at t2 t3
    rw [el] at e2 e3
    rw [es, ep]
    have e4 : tl - nodeLevel tl (DD.node v t c e) = tl - v := by simp only [nodeLevel]
    rw [e4]
    have lim : ∀ {S : ℚ} {i : Nat}, v < i → i ≤ tl → 0 ≤ S → S ≤ 2 ^ (tl - i) →
        0 ≤ S * 2 ^ (i - v - 1) ∧ S * 2 ^ (i - v - 1) ≤ 2 ^ (tl - v - 1) := by
      intro S i h1 h2 h3 h4
      refine ⟨mul_nonneg h3 (pow_nonneg (by norm_num) _), ?_⟩
      calc S * 2 ^ (i - v - 1) ≤ 2 ^ (tl - i) * 2 ^ (i - v - 1) :=
            mul_le_mul_of_nonneg_right h4 (pow_nonneg (by norm_num) _)
        _ = 2 ^ (tl - v - 1) := by rw [← pow_add]; congr 1; omega
    obtain ⟨T0, T1⟩ := lim lt1 lt2 t0 t1
    obtain ⟨E0, E1⟩ := lim le1 le2 e0 e1
    have b1000 : (2 : ℚ) ^ (tl - v - 1) ≤ 2 ^ 1000 := two_pow_le_big (by omega)
    have b1023 : (2 : ℚ) ^ (tl - v - 1) ≤ 2 ^ 1023 := two_pow_le_big (by omega)
    have ex : ∀ {S : ℚ} {i : Nat}, IsDouble S → 0 ≤ S * 2 ^ (i - v - 1) → S * 2 ^ (i - v - 1) ≤ 2 ^ (tl - v - 1) →
        rnd (S * 2 ^ (i - v - 1)) = S * 2 ^ (i - v - 1) := by
      intro S i hd h0 h1
      refine h.exact (isDouble_shift hd _ ?_) ?_
      · rw [abs_of_nonneg h0]; exact h1.trans b1000
      · rw [abs_of_nonneg h0]; exact h1.trans b1023
    rw [ex td T0 T1, ex ed E0 E1]
    have hsum := two_pow_one (show 1 ≤ tl - v by omega)
    have hA0 := add_nonneg T0 E0
    have hA1 : solF rnd tl ⟨neg, t⟩ * 2 ^ (nodeLevel tl t - v - 1) +
        solF rnd tl ⟨neg ^^ c, e⟩ * 2 ^ (nodeLevel tl e - v - 1) ≤ 2 ^ (tl - v) := by
      rw [← hsum]; exact add_le_add T1 E1
    have c1023 : (2 : ℚ) ^ (tl - v) ≤ 2 ^ 1023 := two_pow_le_big (by omega)
    have c1022 : (2 : ℚ) ^ (tl - v) ≤ 2 ^ 1022 := two_pow_le_big (by omega)
    refine ⟨h.isDouble _ (by rw [abs_of_nonneg hA0]; exact hA1.trans c1023), h.nonneg hA0 (hA1.trans c1023),
      h.le_double hA0 (isDouble_two_pow (by omega)) hA1 (hA1.trans c1023), ?_⟩
    -- the relative error
    have scale : ∀ {S : ℚ} {k h' i : Nat}, (k : ℚ) * (1 - h' * (1 / 2 ^ 53)) ≤ S → S ≤ k * (1 + h' * (1 / 2 ^ 52)) →
        h' ≤ max t.height e.height →
        (k : ℚ) * 2 ^ i * (1 - (max t.height e.height : Nat) * (1 / 2 ^ 53)) ≤ S * 2 ^ i ∧
        S * 2 ^ i ≤ (k : ℚ) * 2 ^ i * (1 + (max t.height e.height : Nat) * (1 / 2 ^ 52)) := by
      intro S k h' i h1 h2 hle
      obtain ⟨g1, g2⟩ := rel_mono (Nat.cast_nonneg k) hle h1 h2
      have hp : (0 : ℚ) ≤ 2 ^ i := pow_nonneg (by norm_num) i
      have g3 := mul_le_mul_of_nonneg_right g1 hp
      have g4 := mul_le_mul_of_nonneg_right g2 hp
      constructor
      · calc _ = (k : ℚ) * (1 - (max t.height e.height : Nat) * (1 / 2 ^ 53)) * 2 ^ i := by ring
          _ ≤ _ := g3
      · calc _ ≤ _ := g4
          _ = _ := by ring
    obtain ⟨r1, r2⟩ := scale (i := nodeLevel tl t - v - 1) t2 t3 (le_max_left _ _)
    obtain ⟨r3, r4⟩ := scale (i := nodeLevel tl e - v - 1) e2 e3 (le_max_right _ _)
    have hS0 : (0 : ℚ) ≤ (k : ℚ) * 2 ^ (nodeLevel tl t - v - 1) + l * 2 ^ (nodeLevel tl e - v - 1) :=
      add_nonneg (mul_nonneg (Nat.cast_nonneg k) (pow_nonneg (by norm_num) _))
        (mul_nonneg (Nat.cast_nonneg l) (pow_nonneg (by norm_num) _))
    have hnat : (k : ℚ) * 2 ^ (nodeLevel tl t - v - 1) + l * 2 ^ (nodeLevel tl e - v - 1) =
        ((k * 2 ^ (nodeLevel tl t - v - 1) + l * 2 ^ (nodeLevel tl e - v - 1) : Nat) : ℚ) := by push_cast; rfl
    have A1 := add_le_add r1 r3
    have A2 := add_le_add r2 r4
    rw [← add_mul] at A1 A2
    have hmax : max t.height e.height ≤ 2500 := by omega
    obtain ⟨p1, p2⟩ := rel_pos hS0 hmax A1 A2
    have := h.rel_step hmax hS0 A1 A2 (by
      by_cases hz : (k * 2 ^ (nodeLevel tl t - v - 1) + l * 2 ^ (nodeLevel tl e - v - 1) : Nat) = 0
      · left
        rw [hnat, hz] at p1 p2
        rw [Nat.cast_zero, zero_mul] at p1 p2
        exact le_antisymm p2 p1
      · right
        refine le_trans ?_ p1
        have h1 : (1 : ℚ) ≤ ((k * 2 ^ (nodeLevel tl t - v - 1) + l * 2 ^ (nodeLevel tl e - v - 1) : Nat) : ℚ) := by
          exact_mod_cast Nat.one_le_iff_ne_zero.mpr hz
        rw [hnat]
        have h2 : (1 : ℚ) / 2 ^ 1022 ≤ 1 / 2 := by
          have := inv_pow_le (show 0 ≤ 1000 by norm_num)
          simpa using this
        refine h2.trans ?_
        linarith) (hA1.trans c1022)
    have eh : (DD.node v t c e).height = max t.height e.height + 1 := by
      simp only [DD.height]
    rw [eh]
    exact this

theorem solF_near (h : Nearest rnd) (hm : m.Mono) (tl : Nat) (htl : tl ≤ 1000) (a : Edge) (hwf : a.n.WF m)
    (hv : ∀ v ∈ a.n.vars, v < tl) :
    |solF rnd tl a - memoPure (solutionStep tl) a.n a.neg| ≤ tl / 2 ^ 52 * memoPure (solutionStep tl) a.n a.neg := by
  have hh := DD.height_le_of_vars hwf hv
  obtain ⟨-, -, -, h1, h2⟩ := solF_rel h hm tl htl a.n a.neg hwf hv
  obtain ⟨k, ek, -⟩ := solution_nat hm tl (htl.trans (by norm_num)) a.n a.neg hwf hv
  have h0 : (0 : ℚ) ≤ memoPure (solutionStep tl) a.n a.neg := by rw [ek]; exact Nat.cast_nonneg k
  obtain ⟨g1, g2⟩ := rel_mono h0 hh h1 h2
  change _ ≤ solF rnd tl a at g1
  change solF rnd tl a ≤ _ at g2
  generalize memoPure (solutionStep tl) a.n a.neg = s at *
  have hq : (0 : ℚ) ≤ s * tl := mul_nonneg h0 (Nat.cast_nonneg tl)
  rw [abs_le]
  norm_num at g1 g2 ⊢
  constructor <;> linarith

theorem solF_zero (h : Nearest rnd) (hm : m.Mono) (tl : Nat) (htl : tl ≤ 1000) (a : Edge) (hwf : a.n.WF m)
    (hv : ∀ v ∈ a.n.vars, v < tl) : solF rnd tl a = 0 ↔ memoPure (solutionStep tl) a.n a.neg = 0 := by
  have hh := DD.height_le_of_vars hwf hv
  obtain ⟨-, -, -, h1, h2⟩ := solF_rel h hm tl htl a.n a.neg hwf hv
  obtain ⟨k, ek, -⟩ := solution_nat hm tl (htl.trans (by norm_num)) a.n a.neg hwf hv
  have h0 : (0 : ℚ) ≤ memoPure (solutionStep tl) a.n a.neg := by rw [ek]; exact Nat.cast_nonneg k
  obtain ⟨p1, p2⟩ := rel_pos h0 (hh.trans (by omega)) h1 h2
  change _ ≤ solF rnd tl a at p1
  change solF rnd tl a ≤ _ at p2
  constructor
  · intro hz
    rw [hz] at p1
    linarith
  · intro hz
    rw [hz] at p1 p2
    linarith

open Classical in
/-- The rounded number of solutions as a function of the Boolean function. -/
noncomputable def solWeightF (m : Mgr) (rnd : ℚ → ℚ) (tl : Nat) (g : Asg → Bool) : ℚ :=
  if h : ∃ a : Edge, a.n.WF m ∧ (∀ v ∈ a.n.vars, v < tl) ∧ a.eval = g then solF rnd tl h.choose else solWeight tl g

theorem solWeightF_eq (tl : Nat) (a : Edge) (hwf : a.n.WF m) (hv : ∀ v ∈ a.n.vars, v < tl) :
    solF rnd tl a = solWeightF m rnd tl a.eval := by
  have h : ∃ b : Edge, b.n.WF m ∧ (∀ v ∈ b.n.vars, v < tl) ∧ b.eval = a.eval := ⟨a, hwf, hv, rfl⟩
  unfold solWeightF
  rw [dif_pos h]
  obtain ⟨h1, -, h3⟩ := h.choose_spec
  rw [Edge.eq_of_eval h1 hwf (fun x => by rw [h3])]

theorem solPure_weight' (hm : m.Mono) (tl : Nat) (h64 : tl ≤ 2 ^ 64) (a : Edge)
    (hwf : a.n.WF m) (hv : ∀ v ∈ a.n.vars, v < tl) :
    memoPure (solutionStep tl) a.n a.neg = solWeight tl a.eval := by
  unfold solWeight
  rw [solutionPure_eq hm _ h64 a.n a.neg hwf hv, firstVar_eq hm _ a hwf, frac_onSet _ a hwf hv]

theorem solWeightF_near (h : Nearest rnd) (hm : m.Mono) (tl : Nat) (htl : tl ≤ 1000) (g : Asg → Bool) :
    |solWeightF m rnd tl g - solWeight tl g| ≤ tl / 2 ^ 52 * solWeight tl g := by
  unfold solWeightF
  split
  · rename_i hx
    obtain ⟨h1, h2, h3⟩ := hx.choose_spec
    have := solF_near h hm tl htl _ h1 h2
    rwa [solPure_weight' hm tl (htl.trans (by norm_num)) _ h1 h2, h3] at this
  · rw [sub_self, abs_zero]
    refine mul_nonneg (div_nonneg (Nat.cast_nonneg tl) (pow_nonneg (by norm_num) _)) ?_
    unfold solWeight
    exact mul_nonneg (onSet_bounds tl g).1 (pow_nonneg (by norm_num) _)

theorem roundUpF_sem' (rnd : ℚ → ℚ) (f : BDD m) (ls le : Nat) : ∃ r, roundUpF rnd f ls le = .ok r ∧
    ∀ x, r.eval x = removeSem (solF rnd (terminalLevel [[f]])) ls le false false f.edge.n f.edge.neg x := by
  obtain ⟨r, mp, he, hs, _⟩ := removeChildrenRec_spec
    (solF rnd (terminalLevel [[f]])) (countSolutionsF rnd f) ls le false false
    f.edge.n f.wf f.edge.neg [] (fun a ha => countSolutionsF_find rnd f ha) (rmapOk_nil _)
  exact ⟨r, by simp [roundUpF, he, bind, Except.bind], hs⟩

theorem roundDownF_sem' (rnd : ℚ → ℚ) (f : BDD m) (ls le : Nat) : ∃ r, roundDownF rnd f ls le = .ok r ∧
    ∀ x, r.eval x = removeSem (solF rnd (terminalLevel [[f]])) ls le false true f.edge.n f.edge.neg x := by
  obtain ⟨r, mp, he, hs, _⟩ := removeChildrenRec_spec
    (solF rnd (terminalLevel [[f]])) (countSolutionsF rnd f) ls le false true
    f.edge.n f.wf f.edge.neg [] (fun a ha => countSolutionsF_find rnd f ha) (rmapOk_nil _)
  exact ⟨r, by simp [roundDownF, he, bind, Except.bind], hs⟩

/-! ### `round_best` -/

/-- The decision of `round_best` at one node, with rounded differences. -/
def bestChoiceF (rnd : ℚ → ℚ) (tc ec : ℚ) (b fx : Bool) : Bool :=
  if tc < ec ∧ tc < rnd (1 - ec) then if b then false else fx
  else if ec < tc ∧ ec < rnd (1 - tc) then if b then fx else false
  else if tc > ec ∧ tc > rnd (1 - ec) then if b then true else fx
  else if ec > tc ∧ ec > rnd (1 - tc) then if b then fx else true
  else if b then decide (tc > 1 / 2) else decide (ec > 1 / 2)

/-- Function computed by `round_best_rec` with rounded differences. -/
def roundBestSemF (rnd : ℚ → ℚ) (c : Edge → ℚ) (ls le : Nat) : DD → Bool → Asg → Bool
  | .one, neg, _ => !neg
  | .node v t k e, neg, x =>
    if v < ls then
      if x v then roundBestSemF rnd c ls le t neg x else roundBestSemF rnd c ls le e (neg ^^ k) x
    else if v ≤ le then
      bestChoiceF rnd (c ⟨neg, t⟩) (c ⟨neg ^^ k, e⟩) (x v)
        (if x v then roundBestSemF rnd c ls le t neg x else roundBestSemF rnd c ls le e (neg ^^ k) x)
    else Edge.eval ⟨neg, .node v t k e⟩ x

theorem roundBestRecF_spec (c : Edge → ℚ) (cnt : NMap ℚ) (ls le : Nat)
    (d : DD) (h : d.WF m) : ∀ (neg : Bool) (mp : NMap (BDD m)),
    (∀ a ∈ d.reach neg, NMap.find cnt a = some (c a)) → RMapOk (roundBestSemF rnd c ls le) mp →
    ∃ r mp', roundBestRecF rnd ls le cnt d h neg mp = .ok (r, mp') ∧
      (∀ x, r.eval x = roundBestSemF rnd c ls le d neg x) ∧ RMapOk (roundBestSemF rnd c ls le) mp' := by
  induction d with
  | one =>
    intro neg mp _ hm
    exact ⟨_, mp, rfl, fun x => by cases neg <;> rfl, hm⟩
  | node v t k e iht ihe =>
    intro neg mp hc hm
    have hct := fun a ha => hc a (reach_then ha)
    have hce := fun a ha => hc a (reach_else ha)
    rw [roundBestRecF]
    split
    · rename_i r hr
      exact ⟨r, mp, rfl, hm _ _ hr, hm⟩
    · by_cases h1 : v < ls
      · rw [if_pos h1]
        obtain ⟨r1, mp1, e1, s1, i1⟩ := iht h.1 neg mp hct hm
        obtain ⟨r2, mp2, e2, s2, i2⟩ := ihe h.2.1 (neg ^^ k) mp1 hce i1
        have hs : ∀ x, (BDD.ite (.var v) r1 r2).eval x =
            roundBestSemF rnd c ls le (.node v t k e) neg x := by
          intro x; simp [roundBestSemF, h1, s1, s2]
        exact ⟨_, _, by simp only [e1, e2, bind, Except.bind]; rfl, hs,
          rmapOk_insert i2 _ _ hs⟩
      · rw [if_neg h1]
        by_cases h2 : v ≤ le
        · rw [if_pos h2, hct _ (DD.self_mem_reach t neg), hce _ (DD.self_mem_reach e _)]
          simp only
          obtain ⟨r1, mp1, e1, s1, i1⟩ := iht h.1 neg mp hct hm
          obtain ⟨r2, mp2, e2, s2, i2⟩ := ihe h.2.1 (neg ^^ k) mp hce hm
          have hsem : ∀ x, roundBestSemF rnd c ls le (.node v t k e) neg x = _ := fun x => by
            rw [roundBestSemF, if_neg h1, if_pos h2, bestChoiceF]
          split
          · rename_i h3
            have hs : ∀ x, (BDD.ite (.var v) .zero r2).eval x =
                roundBestSemF rnd c ls le (.node v t k e) neg x := by
              intro x
              rw [hsem, if_pos h3]
              cases hx : x v <;> simp [s2, hx]
            exact ⟨_, _, by simp only [e2, bind, Except.bind]; rfl, hs, rmapOk_insert i2 _ _ hs⟩
          · rename_i h3
            split
            · rename_i h4
              have hs : ∀ x, (BDD.ite (.var v) r1 .zero).eval x =
                  roundBestSemF rnd c ls le (.node v t k e) neg x := by
                intro x
                rw [hsem, if_neg h3, if_pos h4]
                cases hx : x v <;> simp [s1, hx]
              exact ⟨_, _, by simp only [e1, bind, Except.bind]; rfl, hs, rmapOk_insert i1 _ _ hs⟩
            · rename_i h4
              split
              · rename_i h5
                have hs : ∀ x, (BDD.ite (.var v) .one r2).eval x =
                    roundBestSemF rnd c ls le (.node v t k e) neg x := by
                  intro x
                  rw [hsem, if_neg h3, if_neg h4, if_pos h5]
                  cases hx : x v <;> simp [s2, hx]
                exact ⟨_, _, by simp only [e2, bind, Except.bind]; rfl, hs, rmapOk_insert i2 _ _ hs⟩
              · rename_i h5
                split
                · rename_i h6
                  have hs : ∀ x, (BDD.ite (.var v) r1 .one).eval x =
                      roundBestSemF rnd c ls le (.node v t k e) neg x := by
                    intro x
                    rw [hsem, if_neg h3, if_neg h4, if_neg h5, if_pos h6]
                    cases hx : x v <;> simp [s1, hx]
                  exact ⟨_, _, by simp only [e1, bind, Except.bind]; rfl, hs,
                    rmapOk_insert i1 _ _ hs⟩
                · rename_i h6
                  have hs : ∀ x, (BDD.ite (.var v)
                      (if c ⟨neg, t⟩ > 1 / 2 then .one else .zero)
                      (if c ⟨neg ^^ k, e⟩ > 1 / 2 then .one else .zero) : BDD m).eval x =
                      roundBestSemF rnd c ls le (.node v t k e) neg x := by
                    intro x
                    rw [hsem, if_neg h3, if_neg h4, if_neg h5, if_neg h6]
                    rw [BDD.eval_ite]
                    simp only [BDD.eval_var]
                    split <;> split <;> simp_all
                  exact ⟨_, _, rfl, hs, rmapOk_insert hm _ _ hs⟩
        · rw [if_neg h2]
          refine ⟨_, mp, rfl, fun x => ?_, hm⟩
          rw [roundBestSemF, if_neg h1, if_neg h2]
          rfl

theorem roundBestF_sem (rnd : ℚ → ℚ) (f : BDD m) (ls le : Nat) :
    ∃ r, roundBestF rnd f ls le = .ok r ∧
      ∀ x, r.eval x = roundBestSemF rnd (fracF rnd) ls le f.edge.n f.edge.neg x := by
  obtain ⟨r, mp, he, hs, _⟩ := roundBestRecF_spec (rnd := rnd) (fracF rnd) (countMintermsF rnd f) ls le
    f.edge.n f.wf f.edge.neg [] (fun a ha => countMintermsF_find rnd f ha) (rmapOk_nil _)
  exact ⟨r, by simp [roundBestF, he, bind, Except.bind], hs⟩

theorem roundBestSemF_untouched (c : Edge → ℚ) (ls le : Nat) (d : DD) (h : ∀ v ∈ d.vars, v < ls ∨ le < v) :
    ∀ (neg : Bool) (x : Asg), roundBestSemF rnd c ls le d neg x = Edge.eval ⟨neg, d⟩ x := by
  induction d with
  | one => intro neg x; cases neg <;> rfl
  | node v t k e iht ihe =>
    intro neg x
    rw [roundBestSemF, iht (fun w hw => h w (by simp [DD.vars, hw])), ihe (fun w hw => h w (by simp [DD.vars, hw])),
      Edge.eval_node]
    by_cases h1 : v < ls
    · rw [if_pos h1]
    · have := h v (by simp [DD.vars])
      rw [if_neg h1, if_neg (by omega)]

theorem roundBestSemF_eq (hm : m.Mono) (N j : Nat) (d : DD) (hwf : d.WF m)
    (hN : ∀ v ∈ d.vars, v < N) : ∀ (neg : Bool) (x : Asg),
    (DepAt (Edge.eval ⟨neg, d⟩) j x → roundBestSemF rnd (fracF rnd) j j d neg x =
      bestChoiceF rnd (weightF m rnd N (cofAt (Edge.eval ⟨neg, d⟩) j x true))
        (weightF m rnd N (cofAt (Edge.eval ⟨neg, d⟩) j x false)) (x j) (Edge.eval ⟨neg, d⟩ x)) ∧
    (¬ DepAt (Edge.eval ⟨neg, d⟩) j x →
      roundBestSemF rnd (fracF rnd) j j d neg x = Edge.eval ⟨neg, d⟩ x) := by
  induction d with
  | one =>
    intro neg x
    constructor
    · intro hd
      exact absurd hd (depAt_above (a := ⟨neg, .one⟩) (by simp [DD.vars]) x)
    · intro _; cases neg <;> rfl
  | node v t k e iht ihe =>
    intro neg x
    have hNt : ∀ w ∈ t.vars, w < N := fun w hw => hN w (by simp [DD.vars, hw])
    have hNe : ∀ w ∈ e.vars, w < N := fun w hw => hN w (by simp [DD.vars, hw])
    rcases Nat.lt_trichotomy v j with h | h | h
    · rw [depAt_gt h, cofAt_gt h, cofAt_gt h, Edge.eval_node, roundBestSemF, if_pos h]
      cases hx : x v
      · simpa using ihe hwf.2.1 hNe (neg ^^ k) x
      · simpa using iht hwf.1 hNt neg x
    · subst h
      have hvt := DD.Below.vars_lt hm hwf.1 hwf.2.2.1
      have hve := DD.Below.vars_lt hm hwf.2.1 hwf.2.2.2.1
      refine ⟨fun _ => ?_, fun hn => absurd (depAt_self hm hwf x) hn⟩
      rw [cofAt_self hm hwf, cofAt_self hm hwf, roundBestSemF, if_neg (lt_irrefl _), if_pos le_rfl,
        roundBestSemF_untouched _ _ _ t (fun w hw => by have := hvt w hw; omega),
        roundBestSemF_untouched _ _ _ e (fun w hw => by have := hve w hw; omega), Edge.eval_node,
        weightF_eq (m := m) N _ hwf.1 hNt, weightF_eq (m := m) N _ hwf.2.1 hNe]
      simp only [if_true, Bool.false_eq_true, if_false]
    · have hno : ¬ DepAt (Edge.eval ⟨neg, .node v t k e⟩) j x :=
        depAt_above (a := ⟨neg, .node v t k e⟩) (node_vars_gt hm hwf h) x
      refine ⟨fun hd => absurd hd hno, fun _ => ?_⟩
      rw [roundBestSemF, if_neg (by omega), if_neg (by omega)]

/-- The function computed at a single level. -/
theorem roundBestF_level (hm : m.Mono) (f : BDD m) (N : Nat) (hN : Fits N [f]) (j : Nat) :
    ∃ r, roundBestF rnd f j j = .ok r ∧ ∀ x,
      (DepAt f.eval j x → ∀ b y, cofAt r.eval j x b y =
        bestChoiceF rnd (weightF m rnd N (cofAt f.eval j x true)) (weightF m rnd N (cofAt f.eval j x false)) b
          (cofAt f.eval j x b y)) ∧
      (¬ DepAt f.eval j x → r.eval x = f.eval x) := by
  obtain ⟨r, hr, hs⟩ := roundBestF_sem rnd f j j
  have hv : ∀ v ∈ f.edge.n.vars, v < N := fun v hv => hN f (by simp) v (by
    unfold BDD.supportIndices; rw [List.mem_dedup]; exact hv)
  have he := roundBestSemF_eq (rnd := rnd) hm N j f.edge.n f.wf hv f.edge.neg
  refine ⟨r, hr, fun x => ⟨fun hd b y => ?_, fun hd => ?_⟩⟩
  · have := (he (Function.update (mix j x y) j b)).1 ((depAt_upd f.eval j x y b).mpr hd)
    rw [← hs, Function.update_self] at this
    have e1 := cofAt_upd f.eval j x y b true
    have e2 := cofAt_upd f.eval j x y b false
    change r.eval _ = bestChoiceF rnd (weightF m rnd N (cofAt f.eval j _ true))
      (weightF m rnd N (cofAt f.eval j _ false)) b (f.eval _) at this
    rw [e1, e2] at this
    exact this
  · rw [hs x]; exact (he x).2 hd

/-- The cost of replacing a child with the given ON-set by a constant. -/
def costF (z : Bool) (w : ℚ) : ℚ := if z then 1 - w else w

/-- One child is replaced with nearly least cost, or the counts are tied up to rounding. -/
theorem bestChoiceF_cases {T E t e ε u : ℚ} (hT : |T - t| ≤ ε) (hE : |E - e| ≤ ε)
    (h1 : |rnd (1 - E) - (1 - E)| ≤ u) (h2 : |rnd (1 - T) - (1 - T)| ≤ u) (hu : 0 ≤ u) :
    (∃ b z : Bool, (∀ fx, bestChoiceF rnd T E b fx = z) ∧ (∀ fx, bestChoiceF rnd T E (!b) fx = fx) ∧
      costF z (if b then t else e) ≤ min (min t (1 - t)) (min e (1 - e)) + (2 * ε + u)) ∨
    ((∀ b fx, bestChoiceF rnd T E b fx = decide ((if b then T else E) > 1 / 2)) ∧
      (T = E ∨ |T + E - 1| ≤ u)) := by
  rw [abs_le] at hT hE h1 h2
  generalize hA : rnd (1 - E) = A at *
  generalize hB : rnd (1 - T) = B at *
  have fin : ∀ {c : ℚ}, c ≤ t + (2 * ε + u) → c ≤ 1 - t + (2 * ε + u) → c ≤ e + (2 * ε + u) → c ≤ 1 - e + (2 * ε + u) →
      c ≤ min (min t (1 - t)) (min e (1 - e)) + (2 * ε + u) := by
    intro c a1 a2 a3 a4
    rw [← min_add_add_right, ← min_add_add_right, ← min_add_add_right]
    exact le_min (le_min a1 a2) (le_min a3 a4)
  by_cases c1 : T < E ∧ T < A
  · left
    refine ⟨true, false, fun fx => by rw [bestChoiceF, hA, if_pos c1]; rfl,
      fun fx => by rw [bestChoiceF, hA, if_pos c1]; rfl, ?_⟩
    obtain ⟨k1, k2⟩ := c1
    simp only [costF, Bool.false_eq_true, if_false, if_true]
    apply fin <;> linarith
  by_cases c2 : E < T ∧ E < B
  · left
    refine ⟨false, false, fun fx => by rw [bestChoiceF, hA, if_neg c1, hB, if_pos c2]; rfl,
      fun fx => by rw [bestChoiceF, hA, if_neg c1, hB, if_pos c2]; rfl, ?_⟩
    obtain ⟨k1, k2⟩ := c2
    simp only [costF, Bool.false_eq_true, if_false]
    apply fin <;> linarith
  by_cases c3 : T > E ∧ T > A
  · left
    refine ⟨true, true, fun fx => by rw [bestChoiceF, hA, if_neg c1, hB, if_neg c2, if_pos c3]; rfl,
      fun fx => by rw [bestChoiceF, hA, if_neg c1, hB, if_neg c2, if_pos c3]; rfl, ?_⟩
    obtain ⟨k1, k2⟩ := c3
    simp only [costF, if_true]
    apply fin <;> linarith
  by_cases c4 : E > T ∧ E > B
  · left
    refine ⟨false, true, fun fx => by rw [bestChoiceF, hA, if_neg c1, hB, if_neg c2, if_neg c3, if_pos c4]; rfl,
      fun fx => by rw [bestChoiceF, hA, if_neg c1, hB, if_neg c2, if_neg c3, if_pos c4]; rfl, ?_⟩
    obtain ⟨k1, k2⟩ := c4
    simp only [costF, if_true, Bool.false_eq_true, if_false]
    apply fin <;> linarith
  · right
    refine ⟨fun b fx => ?_, ?_⟩
    · rw [bestChoiceF, hA, if_neg c1, hB, if_neg c2, if_neg c3, if_neg c4]
      cases b <;> simp
    · rcases lt_trichotomy T E with h | h | h
      · right
        have k1 : A ≤ T := not_lt.mp fun hh => c1 ⟨h, hh⟩
        have k2 : E ≤ B := not_lt.mp fun hh => c4 ⟨h, hh⟩
        rw [abs_le]
        constructor <;> linarith
      · exact .inl h
      · right
        have k1 : B ≤ E := not_lt.mp fun hh => c2 ⟨h, hh⟩
        have k2 : T ≤ A := not_lt.mp fun hh => c3 ⟨h, hh⟩
        rw [abs_le]
        constructor <;> linarith

/-- The local error with rounded counts. -/
theorem localErr_bestF (N : Nat) (g r : Asg → Bool) (j : Nat) (hj : j < N) (x : Asg) {T E ε u : ℚ}
    (hT : |T - onSet N (cofAt g j x true)| ≤ ε) (hE : |E - onSet N (cofAt g j x false)| ≤ ε)
    (h1 : |rnd (1 - E) - (1 - E)| ≤ u) (h2 : |rnd (1 - T) - (1 - T)| ≤ u) (hu : 0 ≤ u) (hε : 0 ≤ ε)
    (hc : ∀ b y, cofAt r j x b y = bestChoiceF rnd T E b (cofAt g j x b y)) :
    (2 * ε < |onSet N (cofAt g j x true) - onSet N (cofAt g j x false)| →
      2 * ε + u < |onSet N (cofAt g j x true) + onSet N (cofAt g j x false) - 1| →
      OneChildReplaced g r j x ∧ localErr N g r j x ≤
        min (min (onSet N (cofAt g j x true)) (1 - onSet N (cofAt g j x true)))
          (min (onSet N (cofAt g j x false)) (1 - onSet N (cofAt g j x false))) / 2 + (ε + u / 2)) ∧
    localErr N g r j x ≤
        min (min (onSet N (cofAt g j x true)) (1 - onSet N (cofAt g j x true)))
          (min (onSet N (cofAt g j x false)) (1 - onSet N (cofAt g j x false))) + (3 * ε + u / 2) := by
  have hbt := onSet_bounds N (cofAt g j x true)
  have hbe := onSet_bounds N (cofAt g j x false)
  have hmin : 0 ≤ min (min (onSet N (cofAt g j x true)) (1 - onSet N (cofAt g j x true)))
        (min (onSet N (cofAt g j x false)) (1 - onSet N (cofAt g j x false))) := by
    simp only [le_min_iff]
    refine ⟨⟨?_, ?_⟩, ?_, ?_⟩ <;> linarith
  rcases bestChoiceF_cases hT hE h1 h2 hu with ⟨b, z, c1, c2, c3⟩ | ⟨c1, c2⟩
  · have h1' : ∀ y, cofAt r j x b y = z := fun y => by rw [hc, c1]
    have h2' : cofAt r j x (!b) = cofAt g j x (!b) := funext fun y => by rw [hc, c2]
    have key : localErr N g r j x ≤ min (min (onSet N (cofAt g j x true)) (1 - onSet N (cofAt g j x true)))
        (min (onSet N (cofAt g j x false)) (1 - onSet N (cofAt g j x false))) / 2 + (ε + u / 2) := by
      rw [localErr_split N _ _ j hj]
      cases b
      · simp only [Bool.not_false] at h2'
        rw [mean_xor_const N _ _ z h1', mean_xor_self N _ _ h2', zero_add]
        simp only [costF, Bool.false_eq_true, if_false] at c3
        linarith
      · simp only [Bool.not_true] at h2'
        rw [mean_xor_const N _ _ z h1', mean_xor_self N _ _ h2', add_zero]
        simp only [costF, if_true] at c3
        linarith
    exact ⟨fun _ _ => ⟨⟨b, z, h1', h2'⟩, key⟩, by linarith⟩
  · have hd1 : ∀ y, cofAt r j x true y = decide (T > 1 / 2) := fun y => by rw [hc, c1]; simp
    have hd2 : ∀ y, cofAt r j x false y = decide (E > 1 / 2) := fun y => by rw [hc, c1]; simp
    rw [localErr_split N _ _ j hj, mean_xor_const N _ _ _ hd1, mean_xor_const N _ _ _ hd2]
    generalize onSet N (cofAt g j x true) = t at *
    generalize onSet N (cofAt g j x false) = e at *
    clear hd1 hd2 hc c1 hmin h1 h2
    rw [abs_le] at hT hE
    refine ⟨fun k1 k2 => ?_, ?_⟩
    · exfalso
      rcases c2 with c2 | c2
      · rw [lt_abs] at k1
        rcases k1 with k1 | k1 <;> linarith [hT.1, hT.2, hE.1, hE.2]
      · rw [lt_abs] at k2
        rw [abs_le] at c2
        rcases k2 with k2 | k2 <;> linarith [hT.1, hT.2, hE.1, hE.2]
    · rw [← min_add_add_right, ← min_add_add_right, ← min_add_add_right]
      rw [abs_le] at c2
      by_cases a : T > 1 / 2 <;> by_cases c : E > 1 / 2 <;>
        simp only [a, c, decide_true, decide_false, if_true, Bool.false_eq_true, if_false,
          le_min_iff] <;> rcases c2 with h | h <;>
        refine ⟨⟨?_, ?_⟩, ?_, ?_⟩ <;> linarith [hT.1, hT.2, hE.1, hE.2]

/-- Rounding a number between 0 and 1 moves it by at most `2 ^ -53`. -/
theorem Nearest.abs_err (h : Nearest rnd) {q : ℚ} (h0 : 0 ≤ q) (h1 : q ≤ 1) : |rnd q - q| ≤ 1 / 2 ^ 53 := by
  by_cases hq : 1 / 2 ^ 1022 ≤ q
  · have := h.rel hq (h1.trans (one_le_pow₀ (by norm_num)))
    refine this.trans ?_
    exact mul_le_of_le_one_left (by positivity) h1
  · have := h.near q 0 (by rw [abs_of_nonneg h0]; exact h1.trans (one_le_pow₀ (by norm_num))) isDouble_zero
    rw [zero_sub, abs_neg, abs_of_nonneg h0] at this
    refine this.trans ((not_le.mp hq).le.trans ?_)
    exact one_div_le_one_div_of_le (by positivity) (two_pow_le_big (by norm_num))

theorem weightF_range (h : Nearest rnd) (N : Nat) (g : Asg → Bool) : 0 ≤ weightF m rnd N g ∧ weightF m rnd N g ≤ 1 := by
  unfold weightF
  split
  · rename_i hx
    obtain ⟨-, h2, h3⟩ := fracF_range h hx.choose.n hx.choose.neg
    exact ⟨h2, h3⟩
  · exact onSet_bounds N g

end Verif

import Verif.Proofs.Float
import Verif.Proofs.OperatorBest

/-!
# Lemmas about the operators and the random walk with rounded counts
-/

namespace Verif

variable {m : Mgr} {rnd : ℚ → ℚ}

/-! ### Exact ranges -/

theorem fracF_exact (h : Nearest rnd) (d : DD) (neg : Bool) (hh : d.height ≤ 53) :
    fracF rnd ⟨neg, d⟩ = Edge.frac ⟨neg, d⟩ := by
  induction d generalizing neg with
  | one => cases neg <;> simp [fracF, memoPure, Edge.frac, DD.frac]
  | node v t c e iht ihe =>
    have h' := hh
    simp only [DD.height] at hh
    have := minterm_exact (neg := neg) h h'
    simp only [mintermStepF, mintermStep] at this
    rw [fracF_node, iht neg (by omega), ihe (neg ^^ c) (by omega), this, frac_node]
    ring

/-- The number of solutions is a natural number. -/
theorem solution_nat (hm : m.Mono) (tl : Nat) (htl : tl ≤ 2 ^ 64) (d : DD) (neg : Bool)
    (hwf : d.WF m) (h : ∀ v ∈ d.vars, v < tl) :
    ∃ k : Nat, memoPure (solutionStep tl) d neg = k ∧ k ≤ 2 ^ (tl - nodeLevel tl d) := by
  induction d generalizing neg with
  | one =>
    cases neg
    · exact ⟨1, by simp [memoPure], by simp [nodeLevel]⟩
    · exact ⟨0, by simp [memoPure], Nat.zero_le _⟩
  | node v t c e iht ihe =>
    obtain ⟨ht, he, htb, heb, _⟩ := hwf
    have hvtl : v < tl := h v (by simp [DD.vars])
    have hvt : ∀ w ∈ t.vars, w < tl := fun w hw => h w (by simp [DD.vars, hw])
    have hve : ∀ w ∈ e.vars, w < tl := fun w hw => h w (by simp [DD.vars, hw])
    have lt1 := nodeLevel_gt hm (tl := tl) htb hvtl
    have le1 := nodeLevel_gt hm (tl := tl) heb hvtl
    have lt2 := nodeLevel_le hvt
    have le2 := nodeLevel_le hve
    obtain ⟨k, ek, hk⟩ := iht neg ht hvt
    obtain ⟨l, el, hl⟩ := ihe (neg ^^ c) he hve
    have m1 : (nodeLevel tl t + 2 ^ 64 - v - 1) % 2 ^ 64 = nodeLevel tl t - v - 1 := by omega
    have m2 : (nodeLevel tl e + 2 ^ 64 - v - 1) % 2 ^ 64 = nodeLevel tl e - v - 1 := by omega
    refine ⟨k * 2 ^ (nodeLevel tl t - v - 1) + l * 2 ^ (nodeLevel tl e - v - 1), ?_, ?_⟩
    · simp only [memoPure, solutionStep]
      rw [ek, el, m1, m2]
      push_cast
      ring
    · have e3 : tl - nodeLevel tl (DD.node v t c e) = (tl - v - 1) + 1 := by simp only [nodeLevel]; omega
      rw [e3, pow_succ]
      have b1 : k * 2 ^ (nodeLevel tl t - v - 1) ≤ 2 ^ (tl - v - 1) := by
        calc k * 2 ^ (nodeLevel tl t - v - 1) ≤ 2 ^ (tl - nodeLevel tl t) * 2 ^ (nodeLevel tl t - v - 1) :=
              Nat.mul_le_mul_right _ hk
          _ = 2 ^ (tl - v - 1) := by rw [← pow_add]; congr 1; omega
      have b2 : l * 2 ^ (nodeLevel tl e - v - 1) ≤ 2 ^ (tl - v - 1) := by
        calc l * 2 ^ (nodeLevel tl e - v - 1) ≤ 2 ^ (tl - nodeLevel tl e) * 2 ^ (nodeLevel tl e - v - 1) :=
              Nat.mul_le_mul_right _ hl
          _ = 2 ^ (tl - v - 1) := by rw [← pow_add]; congr 1; omega
      omega

theorem Nearest.nat (h : Nearest rnd) {k : Nat} (hk : k ≤ 2 ^ 53) : rnd (k : ℚ) = k := by
  refine h.exact (isDouble_nat k hk) ?_
  rw [abs_of_nonneg (by positivity)]
  calc (k : ℚ) ≤ 2 ^ 53 := by exact_mod_cast hk
    _ ≤ 2 ^ 1023 := pow_le_pow_right₀ (by norm_num) (by norm_num)

/-- Up to 53 levels nothing is rounded. -/
theorem countSolutionsF_eq (hr : Nearest rnd) (hm : m.Mono) (f : BDD m) (hs : terminalLevel [[f]] ≤ 53) :
    countSolutionsF rnd f = countSolutions f := by
  unfold countSolutionsF countSolutions
  have htl : terminalLevel [[f]] ≤ 2 ^ 64 := hs.trans (by norm_num)
  rw [countSolutionsRecF_eq, countSolutionsRec_eq, memoRec_congr (solutionStep (terminalLevel [[f]])) _ _ _ _
    (memoOk_nil _)]
  intro neg v t c e hre
  set tl := terminalLevel [[f]]
  have hwf := DD.reach_wf f.wf hre
  have hv : ∀ w ∈ (DD.node v t c e).vars, w < tl := fun w hw => by
    refine terminalLevel_gt (f := [f]) (by simp) (b := f) (by simp) ?_
    unfold BDD.supportIndices
    rw [List.mem_dedup]
    exact DD.reach_vars hre w hw
  obtain ⟨ht, he, htb, heb, _⟩ := hwf
  have hvtl : v < tl := hv v (by simp [DD.vars])
  have hvt : ∀ w ∈ t.vars, w < tl := fun w hw => hv w (by simp [DD.vars, hw])
  have hve : ∀ w ∈ e.vars, w < tl := fun w hw => hv w (by simp [DD.vars, hw])
  have lt1 := nodeLevel_gt hm (tl := tl) htb hvtl
  have le1 := nodeLevel_gt hm (tl := tl) heb hvtl
  have lt2 := nodeLevel_le hvt
  have le2 := nodeLevel_le hve
  obtain ⟨k, ek, hk⟩ := solution_nat hm tl htl t neg ht hvt
  obtain ⟨l, el, hl⟩ := solution_nat hm tl htl e (neg ^^ c) he hve
  have m1 : (nodeLevel tl t + 2 ^ 64 - v - 1) % 2 ^ 64 = nodeLevel tl t - v - 1 := by omega
  have m2 : (nodeLevel tl e + 2 ^ 64 - v - 1) % 2 ^ 64 = nodeLevel tl e - v - 1 := by omega
  have b1 : k * 2 ^ (nodeLevel tl t - v - 1) ≤ 2 ^ 52 := by
    calc k * 2 ^ (nodeLevel tl t - v - 1) ≤ 2 ^ (tl - nodeLevel tl t) * 2 ^ (nodeLevel tl t - v - 1) :=
          Nat.mul_le_mul_right _ hk
      _ = 2 ^ (tl - v - 1) := by rw [← pow_add]; congr 1; omega
      _ ≤ 2 ^ 52 := Nat.pow_le_pow_right (by norm_num) (by omega)
  have b2 : l * 2 ^ (nodeLevel tl e - v - 1) ≤ 2 ^ 52 := by
    calc l * 2 ^ (nodeLevel tl e - v - 1) ≤ 2 ^ (tl - nodeLevel tl e) * 2 ^ (nodeLevel tl e - v - 1) :=
          Nat.mul_le_mul_right _ hl
      _ = 2 ^ (tl - v - 1) := by rw [← pow_add]; congr 1; omega
      _ ≤ 2 ^ 52 := Nat.pow_le_pow_right (by norm_num) (by omega)
  simp only [solutionStepF, solutionStep]
  rw [ek, el, m1, m2]
  have c1 : (k : ℚ) * 2 ^ (nodeLevel tl t - v - 1) = ((k * 2 ^ (nodeLevel tl t - v - 1) : Nat) : ℚ) := by push_cast; rfl
  have c2 : (l : ℚ) * 2 ^ (nodeLevel tl e - v - 1) = ((l * 2 ^ (nodeLevel tl e - v - 1) : Nat) : ℚ) := by push_cast; rfl
  rw [c1, c2, hr.nat (by omega), hr.nat (by omega), ← Nat.cast_add, hr.nat (by omega)]

/-- Rounding the differences in `round_best` changes nothing where they are `double`s. -/
theorem roundBestRecF_eq (ls le : Nat) (cnt : NMap ℚ) (d : DD) (hwf : d.WF m) (neg : Bool) (mp : NMap (BDD m))
    (h : ∀ a ∈ d.reach neg, ∀ q, NMap.find cnt a = some q → rnd (1 - q) = 1 - q) :
    roundBestRecF rnd ls le cnt d hwf neg mp = roundBestRec ls le cnt d hwf neg mp := by
  induction d generalizing neg mp with
  | one => rfl
  | node v t c e iht ihe =>
    have ht := fun mp => iht hwf.1 neg mp (fun a ha => h a (reach_then ha))
    have he := fun mp => ihe hwf.2.1 (neg ^^ c) mp (fun a ha => h a (reach_else ha))
    rw [roundBestRecF, roundBestRec]
    simp only [ht, he]
    cases h1 : NMap.find cnt ⟨neg, t⟩ with
    | none => rfl
    | some tc =>
      cases h2 : NMap.find cnt ⟨neg ^^ c, e⟩ with
      | none => rfl
      | some ec =>
        have r1 := h _ (reach_then (DD.self_mem_reach t neg)) _ h1
        have r2 := h _ (reach_else (DD.self_mem_reach e _)) _ h2
        simp only [r1, r2]
        cases NMap.find mp ⟨neg, .node v t c e⟩ <;> rfl

theorem one_sub_exact (h : Nearest rnd) {d : DD} {neg : Bool} (hh : d.height ≤ 53) :
    rnd (1 - Edge.frac ⟨neg, d⟩) = 1 - Edge.frac ⟨neg, d⟩ := by
  obtain ⟨k, hk, e⟩ := frac_dyadic d neg hh
  have hk' : (k : ℚ) ≤ 2 ^ 53 := by exact_mod_cast hk
  have h1 : (k : ℚ) / 2 ^ 53 ≤ 1 := by rw [div_le_one (by positivity)]; exact hk'
  have h0 : (0 : ℚ) ≤ (k : ℚ) / 2 ^ 53 := by positivity
  rw [e]
  have : (1 : ℚ) - k / 2 ^ 53 = ((2 ^ 53 - k : Nat) : ℚ) / 2 ^ 53 := by
    rw [Nat.cast_sub hk]
    push_cast
    field_simp
    norm_num
  refine h.exact' ?_ (by linarith) (by linarith)
  rw [this]
  exact isDouble_nat_div _ 53 (by omega) (by norm_num)

/-! ### Weights that differ a little from the exact ones -/

open Classical in
/-- The rounded count as a function of the Boolean function. -/
noncomputable def weightF (m : Mgr) (rnd : ℚ → ℚ) (N : Nat) (g : Asg → Bool) : ℚ :=
  if h : ∃ a : Edge, a.n.WF m ∧ (∀ v ∈ a.n.vars, v < N) ∧ a.eval = g then fracF rnd h.choose else onSet N g

theorem weightF_eq (N : Nat) (a : Edge) (hwf : a.n.WF m) (hv : ∀ v ∈ a.n.vars, v < N) :
    fracF rnd a = weightF m rnd N a.eval := by
  have h : ∃ b : Edge, b.n.WF m ∧ (∀ v ∈ b.n.vars, v < N) ∧ b.eval = a.eval := ⟨a, hwf, hv, rfl⟩
  unfold weightF
  rw [dif_pos h]
  obtain ⟨h1, -, h3⟩ := h.choose_spec
  rw [Edge.eq_of_eval h1 hwf (fun x => by rw [h3])]

/-- Height of a diagram over the first `N` variables. -/
theorem DD.height_le_of_vars {d : DD} {N : Nat} (hwf : d.WF m) (hv : ∀ v ∈ d.vars, v < N) : d.height ≤ N := by
  refine (DD.height_le_card hwf).trans ?_
  calc d.vars.toFinset.card ≤ (Finset.range N).card :=
        Finset.card_le_card fun v h => Finset.mem_range.mpr (hv v (List.mem_toFinset.mp h))
    _ = N := Finset.card_range N

theorem fracF_near (h : Nearest rnd) (N : Nat) (hN : N ≤ 1021) (a : Edge) (hwf : a.n.WF m)
    (hv : ∀ v ∈ a.n.vars, v < N) : |fracF rnd a - a.frac| ≤ N / 2 ^ 52 * a.frac := by
  have hh := DD.height_le_of_vars hwf hv
  obtain ⟨h1, h2⟩ := fracF_rel h a.n a.neg hwf (hh.trans hN)
  have hb := frac_bounds (m := m) (a := a) hwf
  have hq : (a.n.height : ℚ) ≤ N := by exact_mod_cast hh
  have hq0 : (0 : ℚ) ≤ a.n.height := by positivity
  change a.frac * _ ≤ fracF rnd a at h1
  change fracF rnd a ≤ a.frac * _ at h2
  have u2 : (1 : ℚ) / 2 ^ 52 = 2 * (1 / 2 ^ 53) := by norm_num
  have u0 : (0 : ℚ) < 1 / 2 ^ 53 := by positivity
  rw [u2] at h2
  have e : (N : ℚ) / 2 ^ 52 = N * (2 * (1 / 2 ^ 53)) := by rw [← u2]; ring
  rw [e]
  generalize (1 : ℚ) / 2 ^ 53 = u at *
  have k1 : a.frac * (a.n.height * u) ≤ a.frac * (N * u) :=
    mul_le_mul_of_nonneg_left (mul_le_mul_of_nonneg_right hq u0.le) hb.1
  have k0 : 0 ≤ a.frac * (a.n.height * u) := mul_nonneg hb.1 (mul_nonneg hq0 u0.le)
  rw [abs_le]
  constructor <;> linarith

theorem weightF_near (h : Nearest rnd) (N : Nat) (hN : N ≤ 1021) (g : Asg → Bool) :
    |weightF m rnd N g - onSet N g| ≤ N / 2 ^ 52 * onSet N g := by
  unfold weightF
  split
  · rename_i hx
    obtain ⟨h1, h2, h3⟩ := hx.choose_spec
    have := fracF_near h N hN _ h1 h2
    rwa [frac_onSet N _ h1 h2, h3] at this
  · rw [sub_self, abs_zero]
    refine mul_nonneg (by positivity) ?_
    rw [onSet_eq]
    exact (mean_ind_bounds N g).1

theorem roundSem_weight (hm : m.Mono) (N l : Nat) (μ : (Asg → Bool) → ℚ) (c : Edge → ℚ)
    (hμ : ∀ a : Edge, a.n.WF m → (∀ v ∈ a.n.vars, v < N) → c a = μ a.eval)
    (hc : ∀ neg, c ⟨neg, .one⟩ = if neg then 0 else 1) (d : DD) (hwf : d.WF m)
    (hN : ∀ v ∈ d.vars, v < N) : ∀ (neg : Bool) (x : Asg), roundSem c l d neg x =
      decide (μ (fun y => Edge.eval ⟨neg, d⟩ (mix l x y)) > 1 / 2) := by
  induction d with
  | one =>
    intro neg x
    have : (fun y => Edge.eval ⟨neg, .one⟩ (mix l x y)) = Edge.eval ⟨neg, .one⟩ := by
      funext y
      cases neg <;> rfl
    rw [this, ← hμ ⟨neg, .one⟩ hwf hN, hc, roundSem]
    cases neg <;> norm_num
  | node v t k e iht ihe =>
    intro neg x
    rw [roundSem]
    by_cases h1 : v < l
    · rw [if_pos h1, iht hwf.1 (fun w hw => hN w (by simp [DD.vars, hw])),
        ihe hwf.2.1 (fun w hw => hN w (by simp [DD.vars, hw]))]
      have : ∀ y, mix l x y v = x v := fun y => by simp [mix, h1]
      simp only [Edge.eval_node, this]
      cases x v <;> simp
    · rw [if_neg h1, hμ ⟨neg, .node v t k e⟩ hwf hN]
      congr 2
      have : (fun y => Edge.eval ⟨neg, .node v t k e⟩ (mix l x y)) =
          Edge.eval ⟨neg, .node v t k e⟩ := by
        funext y
        apply edge_eval_congr
        intro w hw
        have : v ≤ w := by
          rcases Nat.eq_zero_or_pos v with h | h
          · omega
          · have := node_vars_gt hm hwf (j := v - 1) (by omega) w hw; omega
        simp [mix, show ¬ w < l by omega]
      rw [this]

/-- The operators with any counts that are a function of the node. -/
theorem roundAnyF_sem (rnd : ℚ → ℚ) (f : BDD m) (ls le : Nat) (heavy subset : Bool) :
    ∃ r, roundAnyF rnd f ls le heavy subset = .ok r ∧
      ∀ x, r.eval x = removeSem (fracF rnd) ls le heavy subset f.edge.n f.edge.neg x := by
  obtain ⟨r, mp, he, hs, _⟩ := removeChildrenRec_spec (fracF rnd) (countMintermsF rnd f) ls le heavy subset
    f.edge.n f.wf f.edge.neg [] (fun a ha => countMintermsF_find rnd f ha) (rmapOk_nil _)
  exact ⟨r, by simp [roundAnyF, he, bind, Except.bind], hs⟩

theorem countSolutionsF_find (rnd : ℚ → ℚ) (f : BDD m) {a : Edge} (ha : a ∈ f.edge.n.reach f.edge.neg) :
    NMap.find (countSolutionsF rnd f) a =
      some (memoPure (solutionStepF rnd (terminalLevel [[f]])) a.n a.neg) := by
  unfold countSolutionsF
  rw [countSolutionsRecF_eq]
  obtain ⟨_, h2, h3, _⟩ := memoRec_spec (solutionStepF rnd (terminalLevel [[f]])) f.edge.n f.edge.neg [] (memoOk_nil _)
  obtain ⟨q, hq⟩ := Option.isSome_iff_exists.mp (h3 a ha)
  rw [hq]
  have := h2.val a.neg a.n q hq
  rw [this]

theorem roundUpF_sem (rnd : ℚ → ℚ) (f : BDD m) (ls le : Nat) : ∃ c r, roundUpF rnd f ls le = .ok r ∧
    ∀ x, r.eval x = removeSem c ls le false false f.edge.n f.edge.neg x := by
  obtain ⟨r, mp, he, hs, _⟩ := removeChildrenRec_spec
    (fun a => memoPure (solutionStepF rnd (terminalLevel [[f]])) a.n a.neg) (countSolutionsF rnd f) ls le false false
    f.edge.n f.wf f.edge.neg [] (fun a ha => countSolutionsF_find rnd f ha) (rmapOk_nil _)
  exact ⟨_, r, by simp [roundUpF, he, bind, Except.bind], hs⟩

theorem roundDownF_sem (rnd : ℚ → ℚ) (f : BDD m) (ls le : Nat) : ∃ c r, roundDownF rnd f ls le = .ok r ∧
    ∀ x, r.eval x = removeSem c ls le false true f.edge.n f.edge.neg x := by
  obtain ⟨r, mp, he, hs, _⟩ := removeChildrenRec_spec
    (fun a => memoPure (solutionStepF rnd (terminalLevel [[f]])) a.n a.neg) (countSolutionsF rnd f) ls le false true
    f.edge.n f.wf f.edge.neg [] (fun a ha => countSolutionsF_find rnd f ha) (rmapOk_nil _)
  exact ⟨_, r, by simp [roundDownF, he, bind, Except.bind], hs⟩

theorem roundBddF_sem (rnd : ℚ → ℚ) (f : BDD m) (l : Nat) : ∃ r, roundBddF rnd f l = .ok r ∧
    ∀ x, r.eval x = roundSem (fracF rnd) l f.edge.n f.edge.neg x := by
  obtain ⟨r, mp, he, hs, _⟩ := roundRec_spec (fracF rnd) (countMintermsF rnd f) l
    f.edge.n f.wf f.edge.neg [] (fun a ha => countMintermsF_find rnd f ha) (rmapOk_nil _)
  exact ⟨r, by simp [roundBddF, he, bind, Except.bind], hs⟩

/-! ### The random walk -/

theorem Nearest.pos (h : Nearest rnd) {q : ℚ} (h0 : 1 / 2 ^ 40 ≤ q) (h1 : q ≤ 1) : 0 < rnd q := by
  have hs : (1 : ℚ) / 2 ^ 1022 ≤ 1 / 2 ^ 40 :=
    one_div_le_one_div_of_le (by positivity) (pow_le_pow_right₀ (by norm_num) (by norm_num))
  have := h.rel (hs.trans h0) (h1.trans (one_le_pow₀ (by norm_num)))
  have hq : (0 : ℚ) < q := lt_of_lt_of_le (by positivity) h0
  rw [abs_le] at this
  have e : q * (1 / 2 ^ 53) < q := by
    have : (1 : ℚ) / 2 ^ 53 < 1 := by norm_num
    nlinarith
  linarith [this.1]

theorem randomSatLoopF_spec (hr : Nearest rnd) (hm : m.Mono) (cnt : NMap ℚ) (rs : Nat → Nat)
    (hrs : ∀ i, 0 < rs i ∧ rs i ≤ randMax) :
    ∀ (k level : Nat) (a : Edge), a.n.WF m → a.n.height ≤ 1021 →
    (∀ b ∈ a.n.reach a.neg, NMap.find cnt b = some (fracF rnd b)) →
    (∀ v ∈ a.n.vars, level ≤ v ∧ v < level + k) → 0 < a.frac →
    ∃ l, randomSatLoopF rnd cnt rs k level a = .ok l ∧ l.length = k ∧ (∀ b ∈ l, b < 2) ∧
      ∀ x : Asg, (∀ i < k, x (level + i) = decide (l.getD i 0 ≠ 0)) → a.eval x = true
  | 0, level, ⟨neg, .one⟩, hwf, hh, hc, hv, hp => by
    refine ⟨[], by simp [randomSatLoopF], rfl, by simp, fun x _ => ?_⟩
    cases neg
    · rfl
    · simp [Edge.frac, DD.frac] at hp
  | 0, level, ⟨neg, .node v t c e⟩, hwf, hh, hc, hv, hp => by
    have := hv v (by simp [DD.vars]); omega
  | k + 1, level, ⟨neg, .one⟩, hwf, hh, hc, hv, hp => by
    obtain ⟨l, hl, hlen, hb, hx⟩ := randomSatLoopF_spec hr hm cnt rs hrs k (level + 1) ⟨neg, .one⟩ hwf hh hc
      (by simp [DD.vars]) hp
    refine ⟨rs level % 2 :: l, by simp [randomSatLoopF, hl, bind, Except.bind], by simp [hlen], ?_,
      fun x _ => ?_⟩
    · intro b hb'
      rcases List.mem_cons.mp hb' with rfl | h
      · omega
      · exact hb b h
    · cases neg
      · rfl
      · simp [Edge.frac, DD.frac] at hp
  | k + 1, level, ⟨neg, .node v t c e⟩, hwf, hh, hc, hv, hp => by
    by_cases hlv : level < v
    · obtain ⟨l, hl, hlen, hb, hx⟩ := randomSatLoopF_spec hr hm cnt rs hrs k (level + 1)
        ⟨neg, .node v t c e⟩ hwf hh hc (fun w hw => ⟨by
          simp only [DD.vars, List.mem_cons, List.mem_append] at hw
          rcases hw with rfl | hw | hw
          · omega
          · have := DD.Below.vars_lt hm hwf.1 hwf.2.2.1 w hw; omega
          · have := DD.Below.vars_lt hm hwf.2.1 hwf.2.2.2.1 w hw; omega,
          by have := (hv w hw).2; omega⟩) hp
      refine ⟨rs level % 2 :: l, by simp [randomSatLoopF, hlv, hl, bind, Except.bind],
        by simp [hlen], ?_, fun x hx' => hx x (fun i hi => ?_)⟩
      · intro b hb'
        rcases List.mem_cons.mp hb' with rfl | h
        · omega
        · exact hb b h
      · have := hx' (i + 1) (by omega)
        have e1 : level + 1 + i = level + (i + 1) := by omega
        rw [e1, this]; simp
    · have hveq : v = level := by have := (hv v (by simp [DD.vars])).1; omega
      subst hveq
      have hht : t.height ≤ 1021 := by simp only [DD.height] at hh; omega
      have hhe : e.height ≤ 1021 := by simp only [DD.height] at hh; omega
      have ht : NMap.find cnt ⟨neg, t⟩ = some (fracF rnd ⟨neg, t⟩) := hc _ (reach_then (DD.self_mem_reach t neg))
      have he : NMap.find cnt ⟨neg ^^ c, e⟩ = some (fracF rnd ⟨neg ^^ c, e⟩) :=
        hc _ (reach_else (DD.self_mem_reach e _))
      have hbt := frac_bounds (m := m) (a := ⟨neg, t⟩) hwf.1
      have hbe := frac_bounds (m := m) (a := ⟨neg ^^ c, e⟩) hwf.2.1
      have hzt := fracF_zero hr t neg hwf.1 hht
      have hze := fracF_zero hr e (neg ^^ c) hwf.2.1 hhe
      obtain ⟨dt, t0, t1⟩ := fracF_range hr t neg
      rw [frac_node] at hp
      have hrm : (0 : ℚ) < (randMax : ℚ) := by norm_num [randMax]
      have hr1 : (rs v : ℚ) / randMax ≤ 1 := by
        rw [div_le_one hrm]; exact_mod_cast (hrs v).2
      have hr0 : (1 : ℚ) / 2 ^ 40 ≤ (rs v : ℚ) / randMax := by
        have h1 : (1 : ℚ) / randMax ≤ (rs v : ℚ) / randMax := by
          apply div_le_div_of_nonneg_right _ hrm.le
          exact_mod_cast (hrs v).1
        refine le_trans ?_ h1
        norm_num [randMax]
      have hpos := hr.pos hr0 hr1
      have hle1 : rnd ((rs v : ℚ) / randMax) ≤ 1 := hr.le_one (le_trans (by positivity) hr0) hr1
      have hnl : ¬ v < v := lt_irrefl v
      by_cases hcase : rnd (fracF rnd ⟨neg, t⟩ + fracF rnd ⟨neg ^^ c, e⟩) ≠ 0 ∧ rnd ((rs v : ℚ) / randMax) ≤
          rnd (fracF rnd ⟨neg, t⟩ / rnd (fracF rnd ⟨neg, t⟩ + fracF rnd ⟨neg ^^ c, e⟩))
      · have hpt : 0 < Edge.frac ⟨neg, t⟩ := by
          by_contra hcon
          have : fracF rnd ⟨neg, t⟩ = 0 := hzt.mpr (le_antisymm (not_lt.mp hcon) hbt.1)
          have h2 := hcase.2
          rw [this, zero_div, hr.exact' isDouble_zero le_rfl (by norm_num)] at h2
          linarith
        obtain ⟨l, hl, hlen, hb, hx⟩ := randomSatLoopF_spec hr hm cnt rs hrs k (v + 1) ⟨neg, t⟩ hwf.1 hht
          (fun b hb => hc b (reach_then hb))
          (fun w hw => ⟨DD.Below.vars_lt hm hwf.1 hwf.2.2.1 w hw, by
            have := (hv w (by simp [DD.vars, hw])).2; omega⟩) hpt
        refine ⟨1 :: l, ?_, by simp [hlen], ?_, fun x hx' => ?_⟩
        · rw [randomSatLoopF, if_neg hnl, ht, he]
          simp only
          rw [if_pos hcase]
          simp [hl, bind, Except.bind]
        · intro b hb'
          rcases List.mem_cons.mp hb' with rfl | h
          · omega
          · exact hb b h
        · rw [Edge.eval_node]
          have h0 := hx' 0 (by omega)
          simp only [Nat.add_zero, List.getD_cons_zero, ne_eq, one_ne_zero, not_false_eq_true,
            decide_true] at h0
          rw [if_pos h0]
          exact hx x (fun i hi => by
            have := hx' (i + 1) (by omega)
            have e1 : v + 1 + i = v + (i + 1) := by omega
            rw [e1, this]; simp)
      · have hpe : 0 < Edge.frac ⟨neg ^^ c, e⟩ := by
          by_contra hcon
          have h0 : Edge.frac ⟨neg ^^ c, e⟩ = 0 := le_antisymm (not_lt.mp hcon) hbe.1
          have hf : fracF rnd ⟨neg ^^ c, e⟩ = 0 := hze.mpr h0
          have htn : fracF rnd ⟨neg, t⟩ ≠ 0 := fun h => by
            rw [hzt.mp h, h0] at hp
            norm_num at hp
          apply hcase
          rw [hf, add_zero, hr.exact' dt t0 (by linarith), div_self htn,
            hr.exact' isDouble_one (by norm_num) (by norm_num)]
          exact ⟨htn, hle1⟩
        obtain ⟨l, hl, hlen, hb, hx⟩ := randomSatLoopF_spec hr hm cnt rs hrs k (v + 1) ⟨neg ^^ c, e⟩
          hwf.2.1 hhe (fun b hb => hc b (reach_else hb))
          (fun w hw => ⟨DD.Below.vars_lt hm hwf.2.1 hwf.2.2.2.1 w hw, by
            have := (hv w (by simp [DD.vars, hw])).2; omega⟩) hpe
        refine ⟨0 :: l, ?_, by simp [hlen], ?_, fun x hx' => ?_⟩
        · rw [randomSatLoopF, if_neg hnl, ht, he]
          simp only
          rw [if_neg hcase]
          simp [hl, bind, Except.bind]
        · intro b hb'
          rcases List.mem_cons.mp hb' with rfl | h
          · omega
          · exact hb b h
        · rw [Edge.eval_node]
          have h0 := hx' 0 (by omega)
          simp only [Nat.add_zero, List.getD_cons_zero, ne_eq, not_true_eq_false,
            decide_false] at h0
          rw [if_neg (by rw [h0]; simp)]
          exact hx x (fun i hi => by
            have := hx' (i + 1) (by omega)
            have e1 : v + 1 + i = v + (i + 1) := by omega
            rw [e1, this]; simp)

/-! ### Where rounding loses information -/

/-- An odd numerator of more than 53 bits is not a `double`. -/
theorem not_isDouble_odd {K N : Nat} (ho : K % 2 = 1) (hb : 2 ^ 53 < K) : ¬ IsDouble ((K : ℚ) / 2 ^ N) := by
  rintro ⟨k, e, hk, -, -, he⟩
  have h2 : (K : ℚ) = k * 2 ^ (e + N) := by
    rw [div_eq_iff (by positivity)] at he
    rw [he, zpow_add₀ (by norm_num), zpow_natCast]
    ring
  obtain ⟨j, hj⟩ | ⟨j, hj⟩ : (∃ j : Nat, e + N = j) ∨ ∃ j : Nat, e + N = -j := by
    rcases le_total 0 (e + N) with h | h
    · exact .inl ⟨(e + N).toNat, by omega⟩
    · exact .inr ⟨(-(e + N)).toNat, by omega⟩
  · rw [hj, zpow_natCast] at h2
    have h3 : (K : ℤ) = k * 2 ^ j := by exact_mod_cast h2
    cases j with
    | zero =>
      rw [pow_zero, mul_one] at h3
      rw [← h3] at hk
      rw [abs_of_nonneg (by positivity)] at hk
      omega
    | succ j =>
      rw [pow_succ] at h3
      have : (K : ℤ) % 2 = 0 := by rw [h3, ← mul_assoc]; omega
      omega
  · rw [hj, zpow_neg, zpow_natCast] at h2
    have h3 : (K : ℚ) * 2 ^ j = k := by
      rw [h2]
      field_simp
    have h4 : (K : ℤ) * 2 ^ j = k := by exact_mod_cast h3
    have h5 : (1 : ℤ) ≤ 2 ^ j := one_le_pow₀ (by norm_num)
    have h6 : (K : ℤ) ≤ k := by rw [← h4]; nlinarith
    have := le_abs_self k
    omega

/-- Disjunction of the variables `v, …, v + k`. -/
def orDD (v : Nat) : Nat → DD
  | 0 => .node v .one true .one
  | k + 1 => .node v .one false (orDD (v + 1) k)

theorem orDD_vars (v k : Nat) {w : Nat} (h : w ∈ (orDD v k).vars) : v ≤ w ∧ w ≤ v + k := by
  induction k generalizing v with
  | zero =>
    simp only [orDD, DD.vars, List.append_nil, List.mem_singleton] at h
    omega
  | succ k ih =>
    simp only [orDD, DD.vars, List.nil_append, List.mem_cons] at h
    rcases h with rfl | h
    · omega
    · have := ih (v + 1) h
      omega

theorem orDD_below (v k : Nat) {l : Nat} (h : l < v) : (orDD v k).Below Mgr.id l := by
  cases k <;> exact h

theorem orDD_wf (v k : Nat) : (orDD v k).WF Mgr.id := by
  induction k generalizing v with
  | zero => exact ⟨trivial, trivial, trivial, trivial, by simp⟩
  | succ k ih =>
    refine ⟨trivial, ih (v + 1), trivial, orDD_below _ _ (Nat.lt_succ_self v), ?_⟩
    cases k <;> simp [orDD]

theorem orDD_height (v k : Nat) : (orDD v k).height = k + 1 := by
  induction k generalizing v with
  | zero => rfl
  | succ k ih => simp [orDD, DD.height, ih]

theorem orDD_eval (v k : Nat) (x : Asg) : (orDD v k).eval x = true ↔ ∃ i, v ≤ i ∧ i ≤ v + k ∧ x i = true := by
  induction k generalizing v with
  | zero =>
    simp only [orDD, DD.eval]
    constructor
    · intro h
      refine ⟨v, le_rfl, le_rfl, ?_⟩
      cases hv : x v <;> simp_all
    · rintro ⟨i, h1, h2, h3⟩
      have : i = v := by omega
      subst this
      simp [h3]
  | succ k ih =>
    simp only [orDD, DD.eval]
    cases hv : x v
    · simp only [Bool.false_eq_true, if_false, Bool.false_bne]
      rw [ih]
      constructor
      · rintro ⟨i, h1, h2, h3⟩
        exact ⟨i, by omega, by omega, h3⟩
      · rintro ⟨i, h1, h2, h3⟩
        refine ⟨i, ?_, by omega, h3⟩
        by_contra hc
        have : i = v := by omega
        subst this
        simp [hv] at h3
    · simp only [if_true, true_iff]
      exact ⟨v, le_rfl, by omega, hv⟩

theorem orDD_frac (v k : Nat) : Edge.frac ⟨false, orDD v k⟩ = 1 - 1 / 2 ^ (k + 1) := by
  induction k generalizing v with
  | zero => norm_num [orDD, frac_node, Edge.frac, DD.frac]
  | succ k ih =>
    rw [orDD, frac_node]
    simp only [Bool.bne_false]
    rw [ih]
    simp only [Edge.frac, DD.frac, Bool.false_eq_true, if_false]
    rw [pow_succ 2 (k + 1)]
    field_simp
    ring

theorem orDD_fracF_succ (h : Nearest rnd) (v k : Nat) : fracF rnd ⟨false, orDD v (k + 1)⟩ =
    rnd (1 / 2 + rnd (fracF rnd ⟨false, orDD (v + 1) k⟩ / 2)) := by
  rw [orDD, fracF_node]
  have h1 : fracF rnd ⟨false, .one⟩ = 1 := by simp [fracF, memoPure]
  have hd : IsDouble (1 / 2) := by simpa using isDouble_nat_div 1 1 (by norm_num) (by norm_num)
  rw [h1, h.exact' hd (by norm_num) (by norm_num)]
  rfl

theorem orDD_fracF_shift (h : Nearest rnd) (v w k : Nat) :
    fracF rnd ⟨false, orDD v k⟩ = fracF rnd ⟨false, orDD w k⟩ := by
  induction k generalizing v w with
  | zero => rfl
  | succ k ih => rw [orDD_fracF_succ h, orDD_fracF_succ h, ih (v + 1) (w + 1)]

/-- The two `double`s next to `1 - 2⁻⁵⁴`. -/
theorem Nearest.near_one (h : Nearest rnd) :
    rnd (1 - 1 / 2 ^ 54) = 1 ∨ rnd (1 - 1 / 2 ^ 54) = 1 - 1 / 2 ^ 53 := by
  have hq : |(1 : ℚ) - 1 / 2 ^ 54| ≤ 2 ^ 1023 := by
    rw [abs_of_nonneg (by norm_num)]
    exact le_trans (by norm_num) two_le_big
  have h1 := h.near _ 1 hq isDouble_one
  rw [abs_of_nonneg (by norm_num : (0 : ℚ) ≤ 1 - (1 - 1 / 2 ^ 54)), abs_le] at h1
  obtain ⟨k, e, hk, -, -, he⟩ := h.isDouble _ hq
  generalize hs : rnd (1 - 1 / 2 ^ 54) = s at *
  have hlo : 1 - 1 / 2 ^ 53 ≤ s := by linarith [h1.1, (by norm_num : (1 : ℚ) / 2 ^ 53 = 2 * (1 / 2 ^ 54))]
  have hhi : s ≤ 1 := by linarith [h1.2]
  -- the exponent is at least -53
  have hes : -53 ≤ e := by
    by_contra hc
    have h2 : (2 : ℚ) ^ e ≤ 2 ^ (-54 : ℤ) := zpow_le_zpow_right₀ (by norm_num) (by omega)
    have h3 : (k : ℚ) ≤ 2 ^ 53 := by
      have := (le_abs_self k).trans hk
      exact_mod_cast this
    have h4 : s ≤ 2 ^ 53 * 2 ^ (-54 : ℤ) := by
      rw [he]
      have : (0 : ℚ) < 2 ^ e := zpow_pos (by norm_num) _
      calc (k : ℚ) * 2 ^ e ≤ 2 ^ 53 * 2 ^ e := mul_le_mul_of_nonneg_right h3 this.le
        _ ≤ 2 ^ 53 * 2 ^ (-54 : ℤ) := mul_le_mul_of_nonneg_left h2 (by norm_num)
    have h5 : (2 : ℚ) ^ 53 * 2 ^ (-54 : ℤ) = 1 / 2 := by norm_num
    rw [h5] at h4
    have : (1 : ℚ) - 1 / 2 ^ 53 > 1 / 2 := by norm_num
    linarith
  obtain ⟨j, hj⟩ : ∃ j : Nat, e + 53 = j := ⟨(e + 53).toNat, by omega⟩
  have hint : s * 2 ^ 53 = ((k * 2 ^ j : ℤ) : ℚ) := by
    have h3 : (2 : ℚ) ^ e * 2 ^ 53 = 2 ^ j := by
      rw [← zpow_natCast (2 : ℚ) 53, ← zpow_add₀ (by norm_num)]
      push_cast
      rw [hj, zpow_natCast]
    rw [he, mul_assoc, h3]
    push_cast
    rfl
  have i1 : ((2 ^ 53 - 1 : ℤ) : ℚ) ≤ ((k * 2 ^ j : ℤ) : ℚ) := by
    rw [← hint]
    push_cast
    linarith [mul_le_mul_of_nonneg_right hlo (by norm_num : (0 : ℚ) ≤ 2 ^ 53),
      (by norm_num : ((1 : ℚ) - 1 / 2 ^ 53) * 2 ^ 53 = 2 ^ 53 - 1)]
  have i2 : ((k * 2 ^ j : ℤ) : ℚ) ≤ ((2 ^ 53 : ℤ) : ℚ) := by
    rw [← hint]
    push_cast
    linarith
  have i1' : (2 ^ 53 - 1 : ℤ) ≤ k * 2 ^ j := by exact_mod_cast i1
  have i2' : k * 2 ^ j ≤ (2 ^ 53 : ℤ) := by exact_mod_cast i2
  have : k * 2 ^ j = 2 ^ 53 ∨ k * 2 ^ j = 2 ^ 53 - 1 := by
    generalize k * 2 ^ j = z at *
    omega
  rcases this with h6 | h6
  · left
    rw [h6] at hint
    push_cast at hint
    linarith
  · right
    rw [h6] at hint
    push_cast at hint
    linarith [(by norm_num : ((1 : ℚ) - 1 / 2 ^ 53) * 2 ^ 53 = 2 ^ 53 - 1)]

/-- From 54 variables on, the rounded counts of the disjunctions are all the same. -/
theorem orDD_fracF_tie (h : Nearest rnd) (k : Nat) :
    fracF rnd ⟨false, orDD 0 (53 + k)⟩ = rnd (1 - 1 / 2 ^ 54) := by
  have step : ∀ k, fracF rnd ⟨false, orDD 0 (k + 1)⟩ = rnd (1 / 2 + rnd (fracF rnd ⟨false, orDD 0 k⟩ / 2)) :=
    fun k => by rw [orDD_fracF_succ h, orDD_fracF_shift h 1 0]
  have half : rnd ((1 - 1 / 2 ^ 53) / 2) = (1 - 1 / 2 ^ 53) / 2 := by
    refine h.exact' ?_ (by norm_num) (by norm_num)
    have := isDouble_nat_div (2 ^ 53 - 1) 54 (by norm_num) (by norm_num)
    norm_num at this ⊢
    exact this
  have e54 : (1 : ℚ) / 2 + (1 - 1 / 2 ^ 53) / 2 = 1 - 1 / 2 ^ 54 := by norm_num
  induction k with
  | zero =>
    rw [Nat.add_zero, step 52, fracF_exact h _ _ (by rw [orDD_height]), orDD_frac, half, e54]
  | succ k ih =>
    rw [← Nat.add_assoc, step, ih]
    rcases h.near_one with h1 | h1
    · rw [h1]
      have hd : IsDouble (1 / 2) := by simpa using isDouble_nat_div 1 1 (by norm_num) (by norm_num)
      rw [h.exact' hd (by norm_num) (by norm_num)]
      have : (1 : ℚ) / 2 + 1 / 2 = 1 := by norm_num
      rw [this, h.exact' isDouble_one (by norm_num) (by norm_num)]
    · rw [h1, half, e54, h1]

/-- A node whose then-child has more solutions than its else-child, by less than the counts can tell. -/
def tieDD (k : Nat) : DD := .node 0 (orDD 1 (54 + k)) false (orDD 2 (53 + k))

theorem tieDD_wf (k : Nat) : (tieDD k).WF Mgr.id := by
  refine ⟨orDD_wf _ _, orDD_wf _ _, orDD_below _ _ (by norm_num [Mgr.id]), orDD_below _ _ (by norm_num [Mgr.id]), ?_⟩
  rintro ⟨-, h⟩
  have := congrArg DD.height h
  rw [orDD_height, orDD_height] at this
  omega

/-! ### Underflow -/

/-- Conjunction of the variables `v, …, v + k`. -/
def andDD (v : Nat) : Nat → DD
  | 0 => .node v .one true .one
  | k + 1 => .node v (andDD (v + 1) k) true .one

theorem andDD_below (v k : Nat) {l : Nat} (h : l < v) : (andDD v k).Below Mgr.id l := by
  cases k <;> exact h

theorem andDD_wf (v k : Nat) : (andDD v k).WF Mgr.id := by
  induction k generalizing v with
  | zero => exact ⟨trivial, trivial, trivial, trivial, by simp⟩
  | succ k ih => exact ⟨ih (v + 1), trivial, andDD_below _ _ (Nat.lt_succ_self v), trivial, by simp⟩

theorem andDD_vars (v k : Nat) {w : Nat} (h : w ∈ (andDD v k).vars) : v ≤ w ∧ w ≤ v + k := by
  induction k generalizing v with
  | zero =>
    simp only [andDD, DD.vars, List.append_nil, List.mem_singleton] at h
    omega
  | succ k ih =>
    simp only [andDD, DD.vars, List.append_nil, List.mem_cons] at h
    rcases h with rfl | h
    · omega
    · have := ih (v + 1) h
      omega

theorem andDD_eval_true (v k : Nat) : (andDD v k).eval (fun _ => true) = true := by
  induction k generalizing v with
  | zero => rfl
  | succ k ih => simp [andDD, DD.eval, ih]

theorem andDD_eval_false (v k : Nat) {x : Asg} (h : x v = false) : (andDD v k).eval x = false := by
  cases k <;> simp [andDD, DD.eval, h]

theorem andDD_fracF_succ (h : Nearest rnd) (v k : Nat) : fracF rnd ⟨false, andDD v (k + 1)⟩ =
    rnd (rnd (fracF rnd ⟨false, andDD (v + 1) k⟩ / 2)) := by
  rw [andDD, fracF_node]
  have h1 : fracF rnd ⟨false ^^ true, .one⟩ = 0 := by simp [fracF, memoPure]
  rw [h1, zero_div, h.exact' isDouble_zero le_rfl (by norm_num), add_zero]

theorem isDouble_pow (j : Nat) (hj : j ≤ 1074) : IsDouble (1 / 2 ^ j) := by
  have := isDouble_nat_div 1 j (by norm_num) hj
  simpa using this

theorem Nearest.pow (h : Nearest rnd) (j : Nat) (hj : j ≤ 1074) : rnd (1 / 2 ^ j) = 1 / 2 ^ j := by
  refine h.exact' (isDouble_pow j hj) (by positivity) ?_
  have : (1 : ℚ) / 2 ^ j ≤ 1 := by
    rw [div_le_one (by positivity)]
    exact one_le_pow₀ (by norm_num)
  linarith

theorem andDD_fracF (h : Nearest rnd) (v k : Nat) (hk : k + 1 ≤ 1074) :
    fracF rnd ⟨false, andDD v k⟩ = 1 / 2 ^ (k + 1) := by
  induction k generalizing v with
  | zero =>
    rw [fracF_exact h _ _ (by norm_num [andDD, DD.height])]
    norm_num [andDD, frac_node, Edge.frac, DD.frac]
  | succ k ih =>
    have e : (1 : ℚ) / 2 ^ (k + 1) / 2 = 1 / 2 ^ (k + 1 + 1) := by rw [div_div, ← pow_succ]
    rw [andDD_fracF_succ h, ih (v + 1) (by omega), e, h.pow _ hk, h.pow _ hk]

theorem andDD_fracF_zero (h : Nearest rnd) (h0 : rnd (1 / 2 ^ 1075) = 0) (v k : Nat) (hk : 1074 ≤ k) :
    fracF rnd ⟨false, andDD v k⟩ = 0 := by
  have hz := h.exact' isDouble_zero le_rfl (by norm_num)
  induction k, hk using Nat.le_induction generalizing v with
  | base =>
    have e : (1 : ℚ) / 2 ^ (1073 + 1) / 2 = 1 / 2 ^ 1075 := by rw [div_div, ← pow_succ]
    rw [andDD_fracF_succ h, andDD_fracF h _ _ (by norm_num), e, h0, hz]
  | succ k hk ih => rw [andDD_fracF_succ h, ih (v + 1), zero_div, hz, hz]

theorem randomSatLoopF_one (rnd : ℚ → ℚ) (cnt : NMap ℚ) (rs : Nat → Nat) (neg : Bool) (k level : Nat) :
    ∃ l, randomSatLoopF rnd cnt rs k level ⟨neg, .one⟩ = .ok l := by
  induction k generalizing level with
  | zero => exact ⟨[], by simp [randomSatLoopF]⟩
  | succ k ih =>
    obtain ⟨l, hl⟩ := ih (level + 1)
    exact ⟨_, by rw [randomSatLoopF, hl]; rfl⟩

/-- The `double`s are multiples of the smallest positive one. -/
theorem IsDouble.mul_int {q : ℚ} (h : IsDouble q) : ∃ z : ℤ, q * 2 ^ 1074 = z := by
  obtain ⟨k, e, -, he, -, rfl⟩ := h
  obtain ⟨j, hj⟩ : ∃ j : Nat, e + 1074 = j := ⟨(e + 1074).toNat, by omega⟩
  refine ⟨k * 2 ^ j, ?_⟩
  have h3 : (2 : ℚ) ^ e * 2 ^ 1074 = 2 ^ j := by
    rw [← zpow_natCast (2 : ℚ) 1074, ← zpow_add₀ (by norm_num)]
    push_cast
    rw [hj, zpow_natCast]
  rw [mul_assoc, h3]
  push_cast
  rfl

/-- There is a rounding to nearest that breaks the tie at half the smallest `double` to 0, as ties to even do. -/
theorem exists_nearest_even : ∃ rnd, Nearest rnd ∧ rnd (1 / 2 ^ 1075) = 0 := by
  obtain ⟨rnd, h⟩ := exists_nearest
  refine ⟨Function.update rnd (1 / 2 ^ 1075) 0, ⟨fun q hq => ?_, fun q d hq hd => ?_⟩, Function.update_self ..⟩
  · by_cases hc : q = 1 / 2 ^ 1075
    · rw [hc, Function.update_self]
      exact isDouble_zero
    · rw [Function.update_of_ne hc]
      exact h.isDouble q hq
  · by_cases hc : q = 1 / 2 ^ 1075
    · rw [hc, Function.update_self, zero_sub, abs_neg]
      obtain ⟨z, hz⟩ := hd.mul_int
      have hp : (0 : ℚ) < 2 ^ 1074 := by positivity
      have e : (1 : ℚ) / 2 ^ 1075 * 2 ^ 1074 = 1 / 2 := by
        rw [pow_succ]
        field_simp
      refine le_of_mul_le_mul_right ?_ hp
      rw [← abs_of_pos hp, ← abs_mul, ← abs_mul, sub_mul, e, hz]
      rw [abs_of_nonneg (by norm_num : (0 : ℚ) ≤ 1 / 2)]
      rcases le_or_gt z 0 with h1 | h1
      · have : (z : ℚ) ≤ 0 := by exact_mod_cast h1
        rw [abs_of_nonpos (by linarith)]
        linarith
      · have : (1 : ℚ) ≤ z := by exact_mod_cast h1
        rw [abs_of_nonneg (by linarith)]
        linarith
    · rw [Function.update_of_ne hc]
      exact h.near q d hq hd

end Verif

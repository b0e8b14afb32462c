import Verif.Proofs.FloatOps
import Verif.Props.Nodes
import Verif.Props.Operators

/-!
# C88: what rounding to `double` does to the counts and to the operators built on them
-/

namespace Verif

variable {m : Mgr} {rnd : ℚ → ℚ}

theorem Fits.vars {N : Nat} {f : BDD m} (hN : Fits N [f]) {a : Edge} (ha : a ∈ f.edge.n.reach f.edge.neg) :
    ∀ v ∈ a.n.vars, v < N := fun v hv => hN f (by simp) v (by
  unfold BDD.supportIndices
  rw [List.mem_dedup]
  exact DD.reach_vars ha v hv)

/-- Up to 53 variables the counts of minterms are exact. -/
theorem C88_minterms_exact (hr : Nearest rnd) (f : BDD m) (N : Nat) (hN : Fits N [f]) (h53 : N ≤ 53) (a : Edge)
    (ha : a ∈ f.edge.n.reach f.edge.neg) :
    NMap.find (countMintermsF rnd f) a = some (mean N (fun x => if a.eval x then 1 else 0)) := by
  rw [countMintermsF_eq hr f ((DD.height_le_of_vars f.wf (hN.vars (DD.self_mem_reach _ _))).trans h53)]
  exact C18_count_minterms f N hN a ha

/-- Up to 53 variables the numbers of solutions are exact. -/
theorem C88_solutions_exact (hr : Nearest rnd) (hm : m.Mono) (f : BDD m) (tl : Nat)
    (htl : tl = terminalLevel [[f]]) (h53 : tl ≤ 53) (a : Edge) (ha : a ∈ f.edge.n.reach f.edge.neg) (i : Nat)
    (hi : a.n = .one ∧ i = tl ∨ ∃ t c e, a.n = .node i t c e) :
    NMap.find (countSolutionsF rnd f) a = some (countFrom i (tl - i) a.eval : ℚ) := by
  rw [countSolutionsF_eq hr hm f (htl ▸ h53)]
  exact C19_count_solutions hm f tl htl (h53.trans (by norm_num)) a ha i hi

/-- Up to 53 variables every operator computes what it computes with exact counts, so C48 to C54 and C72 hold for
the code as it runs. -/
theorem C88_operators_exact (hr : Nearest rnd) (f : BDD m) (N : Nat) (hN : Fits N [f]) (h53 : N ≤ 53) (ls le : Nat) :
    (∀ heavy subset, roundAnyF rnd f ls le heavy subset = roundAny f ls le heavy subset) ∧
    roundBddF rnd f ls = roundBdd f ls ∧ roundBestF rnd f ls le = roundBest f ls le ∧
    (m.Mono → roundUpF rnd f ls le = roundUp f ls le ∧ roundDownF rnd f ls le = roundDown f ls le) := by
  have hh := (DD.height_le_of_vars f.wf (hN.vars (DD.self_mem_reach _ _))).trans h53
  have e := countMintermsF_eq hr f hh
  refine ⟨fun heavy subset => ?_, ?_, ?_, fun hm => ?_⟩
  · rw [roundAnyF, roundAny, e]
  · rw [roundBddF, roundBdd, e]
  · rw [roundBestF, roundBest, e, roundBestRecF_eq]
    intro a ha q hq
    rw [countMinterms_find f ha, Option.some.injEq] at hq
    rw [← hq]
    exact one_sub_exact hr ((DD.reach_height ha).trans hh)
  · have h2 : terminalLevel [[f]] ≤ 53 := by
      refine terminalLevel_le (by norm_num) (fun g hg b hb v hv => ?_)
      simp only [List.mem_singleton] at hg
      subst hg
      exact lt_of_lt_of_le (hN b hb v hv) h53
    rw [roundUpF, roundUp, roundDownF, roundDown, countSolutionsF_eq hr hm f h2]
    exact ⟨rfl, rfl⟩

/-- Up to 1021 variables a count has a relative error of at most one unit in the last place for each variable, and it
is 0 for the constant false function only. -/
theorem C88_relative_error (hr : Nearest rnd) (f : BDD m) (N : Nat) (hN : Fits N [f]) (h1021 : N ≤ 1021) (a : Edge)
    (ha : a ∈ f.edge.n.reach f.edge.neg) : ∃ q, NMap.find (countMintermsF rnd f) a = some q ∧ IsDouble q ∧
      0 ≤ q ∧ q ≤ 1 ∧ |q - onSet N a.eval| ≤ N / 2 ^ 52 * onSet N a.eval ∧ (q = 0 ↔ ∀ x, a.eval x = false) := by
  have hv := hN.vars ha
  have hwf := DD.reach_wf f.wf ha
  obtain ⟨h1, h2, h3⟩ := fracF_range hr a.n a.neg
  refine ⟨fracF rnd a, countMintermsF_find rnd f ha, h1, h2, h3, ?_, ?_⟩
  · rw [← frac_onSet N a hwf hv]
    exact fracF_near hr N h1021 a hwf hv
  · rw [fracF_zero hr a.n a.neg hwf ((DD.height_le_of_vars hwf hv).trans h1021)]
    constructor
    · intro h0 x
      by_contra hx
      have hp := (frac_pos_iff (a := a) hwf).mpr ⟨x, by simpa using hx⟩
      exact hp.ne' h0
    · intro h0
      by_contra hne
      have hp := lt_of_le_of_ne (frac_bounds (a := a) hwf).1 (Ne.symm hne)
      obtain ⟨x, hx⟩ := (frac_pos_iff (a := a) hwf).mp hp
      rw [h0 x] at hx
      cases hx

/-- Whatever the rounding does, the subset operators stay below the function. -/
theorem C88_subset (rnd : ℚ → ℚ) (f : BDD m) (ls le : Nat) :
    (∀ heavy, ∃ r, roundAnyF rnd f ls le heavy true = .ok r ∧ ∀ x, r.eval x = true → f.eval x = true) ∧
    ∃ r, roundDownF rnd f ls le = .ok r ∧ ∀ x, r.eval x = true → f.eval x = true := by
  refine ⟨fun heavy => ?_, ?_⟩
  · obtain ⟨r, hr, hs⟩ := roundAnyF_sem rnd f ls le heavy true
    exact ⟨r, hr, fun x hx => removeSem_subset _ _ _ _ _ _ _ (hs x ▸ hx)⟩
  · obtain ⟨c, r, hr, hs⟩ := roundDownF_sem rnd f ls le
    exact ⟨r, hr, fun x hx => removeSem_subset _ _ _ _ _ _ _ (hs x ▸ hx)⟩

/-- Whatever the rounding does, the superset operators stay above the function. -/
theorem C88_superset (rnd : ℚ → ℚ) (f : BDD m) (ls le : Nat) :
    (∀ heavy, ∃ r, roundAnyF rnd f ls le heavy false = .ok r ∧ ∀ x, f.eval x = true → r.eval x = true) ∧
    ∃ r, roundUpF rnd f ls le = .ok r ∧ ∀ x, f.eval x = true → r.eval x = true := by
  refine ⟨fun heavy => ?_, ?_⟩
  · obtain ⟨r, hr, hs⟩ := roundAnyF_sem rnd f ls le heavy false
    exact ⟨r, hr, fun x hx => by rw [hs]; exact removeSem_superset _ _ _ _ _ _ _ hx⟩
  · obtain ⟨c, r, hr, hs⟩ := roundUpF_sem rnd f ls le
    exact ⟨r, hr, fun x hx => by rw [hs]; exact removeSem_superset _ _ _ _ _ _ _ hx⟩

/-- Up to 1021 variables the light and heavy child operators do what C50 says with weights that are off by a relative
error of at most `N / 2 ^ 52`. -/
theorem C88_children (hr : Nearest rnd) (hm : m.Mono) (f : BDD m) (N : Nat) (hN : Fits N [f]) (h1021 : N ≤ 1021)
    (ls le : Nat) (heavy subset : Bool) : ∃ (μ : (Asg → Bool) → ℚ) (r : BDD m),
      (∀ g, |μ g - onSet N g| ≤ N / 2 ^ 52 * onSet N g) ∧ roundAnyF rnd f ls le heavy subset = .ok r ∧ ∀ x,
        (HitAt μ heavy ls le f.eval x → r.eval x = !subset) ∧
        (¬ HitAt μ heavy ls le f.eval x → r.eval x = f.eval x) := by
  obtain ⟨r, hr', hs⟩ := roundAnyF_sem rnd f ls le heavy subset
  refine ⟨weightF m rnd N, r, weightF_near hr N h1021, hr', fun x => ?_⟩
  have := removeSem_eq hm N (weightF m rnd N) (fracF rnd) (fun a ha hv => weightF_eq N a ha hv) ls le heavy
    subset f.edge.n f.wf (hN.vars (DD.self_mem_reach _ _)) f.edge.neg x
  rw [hs x]
  exact this

/-- The single-level form: the child that `subset_light_child` removes is not heavier than the other one by more than
the errors of the counts. -/
theorem C88_light_child (hr : Nearest rnd) (hm : m.Mono) (f : BDD m) (N : Nat) (hN : Fits N [f]) (h1021 : N ≤ 1021)
    (j : Nat) : ∃ r, roundAnyF rnd f j j false true = .ok r ∧ ∀ x,
      (DepAt f.eval j x → ∃ b,
        onSet N (cofAt f.eval j x b) * (1 - N / 2 ^ 52) ≤ onSet N (cofAt f.eval j x (!b)) * (1 + N / 2 ^ 52) ∧
        (∀ y, cofAt r.eval j x b y = false) ∧
        cofAt r.eval j x (!b) = cofAt f.eval j x (!b)) ∧
      (¬ DepAt f.eval j x → r.eval x = f.eval x) := by
  obtain ⟨μ, r, hμ, hr', hs⟩ := C88_children hr hm f N hN h1021 j j false true
  refine ⟨r, hr', fun x => ⟨fun hd => ?_, fun hd => ?_⟩⟩
  · obtain ⟨b, hb, hnb⟩ := exists_remBranch μ false f.eval j x
    obtain ⟨h1, h2⟩ := single_cof hs x hd b hb hnb
    refine ⟨b, ?_, h1, h2⟩
    have hle : μ (cofAt f.eval j x b) ≤ μ (cofAt f.eval j x (!b)) := by
      unfold RemBranch at hb
      cases b
      · simp at hb; simpa using hb.le
      · simp at hb; simpa using hb
    have b1 := hμ (cofAt f.eval j x b)
    have b2 := hμ (cofAt f.eval j x (!b))
    rw [abs_le] at b1 b2
    linarith [b1.1, b2.2]
  · exact (hs x).2 (fun h => hd ((hitAt_single _ _ _ _ _).mp h).1)

/-- With more than 53 variables it can be the heavier one: in the witness, a then-child that is true more often than
the else-child is removed, because the two counts are rounded to the same number. So C50 does not hold for the code as
it runs, for any way to break ties. -/
theorem C88_light_child_false (hr : Nearest rnd) (k : Nat) : ∃ f : BDD Mgr.id, Fits (56 + k) [f] ∧
    ∃ r, roundAnyF rnd f 0 0 false true = .ok r ∧ ∀ x,
      DepAt f.eval 0 x ∧
      onSet (56 + k) (cofAt f.eval 0 x false) < onSet (56 + k) (cofAt f.eval 0 x true) ∧
      (∀ y, cofAt r.eval 0 x true y = false) ∧
      cofAt r.eval 0 x false = cofAt f.eval 0 x false := by
  let f : BDD Mgr.id := ⟨⟨false, tieDD k⟩, tieDD_wf k⟩
  have hvars : ∀ v ∈ (tieDD k).vars, v < 56 + k := by
    intro v hv
    simp only [tieDD, DD.vars, List.mem_cons, List.mem_append] at hv
    rcases hv with rfl | hv | hv
    · omega
    · have := orDD_vars _ _ hv; omega
    · have := orDD_vars _ _ hv; omega
  refine ⟨f, ?_, ?_⟩
  · intro b hb v hv
    simp only [List.mem_singleton] at hb
    subst hb
    unfold BDD.supportIndices at hv
    rw [List.mem_dedup] at hv
    exact hvars v hv
  obtain ⟨r, hr', hs⟩ := roundAnyF_sem rnd f 0 0 false true
  refine ⟨r, hr', fun x => ?_⟩
  have tie : fracF rnd ⟨false, orDD 1 (54 + k)⟩ = fracF rnd ⟨false, orDD 2 (53 + k)⟩ := by
    rw [orDD_fracF_shift hr 1 0, orDD_fracF_shift hr 2 0, orDD_fracF_tie hr k,
      show 54 + k = 53 + (k + 1) by omega, orDD_fracF_tie hr (k + 1)]
  have gt_upd : ∀ (v k : Nat) (hv : 0 < v) (x y : Asg) (b : Bool),
      (orDD v k).eval (Function.update (mix 0 x y) 0 b) = (orDD v k).eval y := by
    intro v k hv x y b
    refine DD.eval_congr (fun w hw => ?_)
    have := orDD_vars _ _ hw
    rw [Function.update_of_ne (by omega)]
    simp [mix]
  have ft : cofAt f.eval 0 x true = Edge.eval ⟨false, orDD 1 (54 + k)⟩ := by
    funext y
    change Edge.eval ⟨false, tieDD k⟩ _ = _
    rw [tieDD, Edge.eval_node, Function.update_self, if_pos rfl]
    simp only [Edge.eval]
    rw [gt_upd 1 _ (by omega)]
  have fe : cofAt f.eval 0 x false = Edge.eval ⟨false, orDD 2 (53 + k)⟩ := by
    funext y
    change Edge.eval ⟨false, tieDD k⟩ _ = _
    rw [tieDD, Edge.eval_node, Function.update_self, if_neg (by simp)]
    simp only [Edge.eval, Bool.bne_false]
    rw [gt_upd 2 _ (by omega)]
  have hsem : ∀ z, r.eval z = if z 0 then false else Edge.eval ⟨false, orDD 2 (53 + k)⟩ z := by
    intro z
    rw [hs z]
    change removeSem (fracF rnd) 0 0 false true (tieDD k) false z = _
    rw [tieDD, removeSem, if_neg (lt_irrefl 0), if_pos le_rfl, if_pos]
    · simp only [Bool.not_true, Bool.bne_false]
      cases hz : z 0
      · simp only [Bool.false_eq_true, if_false]
        have : (orDD 2 (53 + k)) = .node 2 .one false (orDD 3 (52 + k)) := by
          rw [show 53 + k = (52 + k) + 1 by omega]
          rfl
        rw [this, removeSem, if_neg (by omega), if_neg (by omega)]
      · rfl
    · simp only [Bool.bne_false]
      rw [tie]
      simp
  refine ⟨?_, ?_, ?_, ?_⟩
  · refine ⟨fun i => i == 1, ?_⟩
    rw [ft, fe]
    simp only [Edge.eval]
    have h1 : (orDD 1 (54 + k)).eval (fun i => i == 1) = true := (orDD_eval _ _ _).mpr ⟨1, by simp⟩
    have h2 : ¬ (orDD 2 (53 + k)).eval (fun i => i == 1) = true := fun h => by
      obtain ⟨i, hi, -, h3⟩ := (orDD_eval _ _ _).mp h
      simp only [beq_iff_eq] at h3
      omega
    rw [h1]
    simpa using h2
  · rw [ft, fe, ← frac_onSet (m := Mgr.id) _ _ (orDD_wf _ _) (fun v hv => by have := orDD_vars _ _ hv; omega),
      ← frac_onSet (m := Mgr.id) _ _ (orDD_wf _ _) (fun v hv => by have := orDD_vars _ _ hv; omega),
      orDD_frac, orDD_frac]
    have : (1 : ℚ) / 2 ^ (54 + k + 1) < 1 / 2 ^ (53 + k + 1) :=
      one_div_lt_one_div_of_lt (by positivity) (pow_lt_pow_right₀ (by norm_num) (by omega))
    linarith
  · intro y
    unfold cofAt
    rw [hsem, Function.update_self, if_pos rfl]
  · rw [fe]
    funext y
    unfold cofAt
    rw [hsem, Function.update_self, if_neg (by simp)]
    simp only [Edge.eval]
    rw [gt_upd 2 _ (by omega)]

/-- Up to 1021 variables `round_bdd` takes a majority that may be wrong only if it is close. -/
theorem C88_round_bdd (hr : Nearest rnd) (hm : m.Mono) (f : BDD m) (N : Nat) (hN : Fits N [f]) (h1021 : N ≤ 1021)
    (l : Nat) : ∃ r, roundBddF rnd f l = .ok r ∧ (∀ x y : Asg, (∀ v < l, x v = y v) → r.eval x = r.eval y) ∧
      (∀ x, onSet N (fun y => f.eval (mix l x y)) * (1 - N / 2 ^ 52) > 1 / 2 → r.eval x = true) ∧
      (∀ x, onSet N (fun y => f.eval (mix l x y)) * (1 + N / 2 ^ 52) ≤ 1 / 2 → r.eval x = false) := by
  obtain ⟨r, hr', hs⟩ := roundBddF_sem rnd f l
  have key : ∀ x, r.eval x = decide (weightF m rnd N (fun y => f.eval (mix l x y)) > 1 / 2) := fun x => by
    rw [hs x, roundSem_weight hm N l (weightF m rnd N) (fracF rnd) (fun a ha hv => weightF_eq N a ha hv)
      (fun neg => by cases neg <;> simp [fracF, memoPure]) f.edge.n f.wf (hN.vars (DD.self_mem_reach _ _))]
    rfl
  refine ⟨r, hr', fun x y hxy => ?_, fun x hx => ?_, fun x hx => ?_⟩
  · have : ∀ z, mix l x z = mix l y z := fun z => by
      funext v
      unfold mix
      split
      · exact hxy v (by assumption)
      · rfl
    simp only [key, this]
  · have := weightF_near (m := m) hr N h1021 (fun y => f.eval (mix l x y))
    rw [abs_le] at this
    rw [key, decide_eq_true_eq]
    linarith [this.1]
  · have := weightF_near (m := m) hr N h1021 (fun y => f.eval (mix l x y))
    rw [abs_le] at this
    rw [key, decide_eq_false_iff_not]
    linarith [this.2]

/-- Up to 1021 variables the random walk ends in a satisfying input, as in C20, if no draw is 0. -/
theorem C88_random_satisfying_input_partial (hr : Nearest rnd) (hm : m.Mono) (f : BDD m) (maxLevel : Nat)
    (hs : ∃ x, f.eval x = true) (hN : Fits maxLevel [f]) (h1021 : maxLevel ≤ 1021) (rs : Nat → Nat)
    (hrs : ∀ i, rs i ≤ randMax) (hpos : ∀ i, rs i ≠ 0) :
    ∃ l, randomSatisfyingInputF rnd f (countMintermsF rnd f) maxLevel rs = .ok l ∧ l.length = maxLevel ∧
      (∀ b ∈ l, b = 0 ∨ b = 1) ∧ f.eval (asgOf l) = true := by
  obtain ⟨l, hl, hlen, hb, hx⟩ := randomSatLoopF_spec hr hm (countMintermsF rnd f) rs
    (fun i => ⟨Nat.pos_of_ne_zero (hpos i), hrs i⟩) maxLevel 0 f.edge f.wf
    ((DD.height_le_of_vars f.wf (hN.vars (DD.self_mem_reach _ _))).trans h1021)
    (fun b hb => countMintermsF_find rnd f hb)
    (fun v hv => ⟨Nat.zero_le _, by
      have := hN.vars (DD.self_mem_reach _ _) v hv
      omega⟩) ((frac_pos_iff (m := m) f.wf).mpr hs)
  exact ⟨l, hl, hlen, fun b hb' => by have := hb b hb'; omega, hx _ (fun i hi => by simp [asgOf])⟩

/-- Beyond 53 variables the counts need not be exact: no function that is true for an odd number of more than `2 ^ 53`
inputs has an exact count, whatever the order in which its nodes are visited. -/
theorem C88_minterms_inexact (hr : Nearest rnd) (f : BDD m) (N : Nat)
    (hodd : count N f.eval % 2 = 1) (hbig : 2 ^ 53 < count N f.eval) :
    NMap.find (countMintermsF rnd f) f.edge ≠ some ((count N f.eval : ℚ) / 2 ^ N) := by
  rw [countMintermsF_find rnd f (DD.self_mem_reach _ _)]
  intro h
  rw [Option.some.injEq] at h
  have := (fracF_range hr f.edge.n f.edge.neg).1
  rw [h] at this
  exact not_isDouble_odd hodd hbig this

/-- So the claim of C18 does not hold for the code as it runs. -/
theorem C88_minterms_exact_false (hr : Nearest rnd) : ¬ ∀ (f : BDD Mgr.id) (N : Nat), Fits N [f] →
    NMap.find (countMintermsF rnd f) f.edge = some ((count N f.eval : ℚ) / 2 ^ N) := by
  intro h
  let f : BDD Mgr.id := ⟨⟨false, orDD 0 53⟩, orDD_wf _ _⟩
  have hv : ∀ v ∈ (orDD 0 53).vars, v < 54 := fun v hv => by
    have := orDD_vars _ _ hv
    omega
  have hN : Fits 54 [f] := fun b hb v hv' => by
    simp only [List.mem_singleton] at hb
    subst hb
    unfold BDD.supportIndices at hv'
    rw [List.mem_dedup] at hv'
    exact hv v hv'
  have hc : (count 54 f.eval : ℚ) / 2 ^ 54 = 1 - 1 / 2 ^ 54 := by
    rw [← mean_ind_count 54 f.eval]
    have := frac_onSet (m := Mgr.id) 54 ⟨false, orDD 0 53⟩ (orDD_wf _ _) hv
    rw [orDD_frac] at this
    exact this.symm
  have hc' : count 54 f.eval = 2 ^ 54 - 1 := by
    have : (count 54 f.eval : ℚ) = ((2 ^ 54 - 1 : Nat) : ℚ) := by
      rw [div_eq_iff (by positivity)] at hc
      rw [hc]
      norm_num
    exact_mod_cast this
  exact C88_minterms_inexact hr f 54 (by rw [hc']; norm_num) (by rw [hc']; norm_num) (h f 54 hN)

/-- The limit on the number of variables in C88_relative_error and C88_random_satisfying_input_partial is needed.
From 1075 variables on, the count of a conjunction is 0 although the function is satisfiable, and from 1076 on every
walk ends in an input that does not satisfy it. The second hypothesis is what rounding ties to even does. -/
theorem C88_underflow_false (hr : Nearest rnd) (heven : rnd (1 / 2 ^ 1075) = 0) (N : Nat) (hN : 1075 ≤ N) :
    ∃ f : BDD Mgr.id, Fits N [f] ∧ (∃ x, f.eval x = true) ∧ NMap.find (countMintermsF rnd f) f.edge = some 0 ∧
      (1076 ≤ N → ∀ rs : Nat → Nat, ∃ l,
        randomSatisfyingInputF rnd f (countMintermsF rnd f) N rs = .ok l ∧ f.eval (asgOf l) = false) := by
  obtain ⟨n, rfl⟩ : ∃ n, N = n + 1 := ⟨N - 1, by omega⟩
  let f : BDD Mgr.id := ⟨⟨false, andDD 0 n⟩, andDD_wf _ _⟩
  have hstep : 1076 ≤ n + 1 → ∀ (rs : Nat → Nat) (k : Nat),
      randomSatisfyingInputF rnd f (countMintermsF rnd f) (k + 1) rs =
        (randomSatLoopF rnd (countMintermsF rnd f) rs k 1 ⟨true, .one⟩).map (0 :: ·) := by
    intro h rs k
    obtain ⟨n, rfl⟩ : ∃ i, n = i + 1 := ⟨n - 1, by omega⟩
    unfold randomSatisfyingInputF
    have h1 : NMap.find (countMintermsF rnd f) ⟨false, andDD 1 n⟩ = some 0 := by
      rw [countMintermsF_find rnd f (reach_then (DD.self_mem_reach _ _)), andDD_fracF_zero hr heven _ _ (by omega)]
    have h2 : NMap.find (countMintermsF rnd f) ⟨false ^^ true, .one⟩ = some 0 := by
      rw [countMintermsF_find rnd f (reach_else (DD.self_mem_reach _ _))]
      simp [fracF, memoPure]
    change randomSatLoopF rnd (countMintermsF rnd f) rs (k + 1) 0 ⟨false, .node 0 (andDD 1 n) true .one⟩ = _
    rw [randomSatLoopF, if_neg (lt_irrefl 0), h1, h2]
    simp only [add_zero]
    rw [if_neg (fun h => h.1 (hr.exact' isDouble_zero le_rfl (by norm_num)))]
    simp only [Bool.false_bne]
    cases randomSatLoopF rnd (countMintermsF rnd f) rs k 1 ⟨true, .one⟩ <;> rfl
  have hfalse : ∀ l : List Nat, f.eval (asgOf (0 :: l)) = false := fun l => by
    change Edge.eval ⟨false, andDD 0 n⟩ _ = false
    simp only [Edge.eval]
    rw [andDD_eval_false 0 n (by simp [asgOf])]
    rfl
  refine ⟨f, ?_, ⟨fun _ => true, ?_⟩, ?_, fun h rs => ?_⟩
  · intro b hb v hv
    simp only [List.mem_singleton] at hb
    subst hb
    unfold BDD.supportIndices at hv
    rw [List.mem_dedup] at hv
    have := andDD_vars _ _ hv
    omega
  · change Edge.eval ⟨false, andDD 0 n⟩ _ = true
    simp [Edge.eval, andDD_eval_true]
  · rw [countMintermsF_find rnd f (DD.self_mem_reach _ _)]
    exact congrArg some (andDD_fracF_zero hr heven _ _ (by omega))
  · obtain ⟨l, hl⟩ := randomSatLoopF_one rnd (countMintermsF rnd f) rs true n 1
    exact ⟨0 :: l, by rw [hstep h, hl]; rfl, hfalse l⟩

example : ∃ rnd, Nearest rnd ∧ rnd (1 / 2 ^ 1075) = 0 := exists_nearest_even

/-- There is a rounding to nearest, and the hypotheses on the function are met by a small one. -/
example : (∃ rnd, Nearest rnd) ∧ Mgr.id.Mono ∧ Fits 2 [(BDD.var 0 : BDD Mgr.id).xor (.var 1)] ∧
    (BDD.var 1 : BDD Mgr.id).not.edge ∈ (((BDD.var 0 : BDD Mgr.id).xor (.var 1)).edge.n.reach
      ((BDD.var 0 : BDD Mgr.id).xor (.var 1)).edge.neg) ∧
    terminalLevel [[(BDD.var 0 : BDD Mgr.id).xor (.var 1)]] = 2 ∧
    DepAt ((BDD.var 0 : BDD Mgr.id).xor (.var 1)).eval 0 (fun _ => false) ∧
    ∃ x, ((BDD.var 0 : BDD Mgr.id).xor (.var 1)).eval x = true :=
  ⟨exists_nearest, Mgr.id_mono, fits_xor01, by decide +kernel, by decide +kernel,
    ⟨fun _ => false, by simp [cofAt, mix]⟩, ⟨fun i => i == 0, by simp⟩⟩

end Verif

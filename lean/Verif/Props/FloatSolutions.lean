import Verif.Proofs.FloatSolutions
import Verif.Props.Float

/-!
# C88, continued: numbers of solutions, `round_up`, `round_down` and `round_best` with rounded counts
-/

namespace Verif

variable {m : Mgr} {rnd : ℚ → ℚ}

theorem edge_vars_lt_terminal (f : BDD m) {a : Edge} (ha : a ∈ f.edge.n.reach f.edge.neg) :
    ∀ v ∈ a.n.vars, v < terminalLevel [[f]] := fun v hv =>
  terminalLevel_gt (f := [f]) (by simp) (b := f) (by simp) (by
    unfold BDD.supportIndices
    rw [List.mem_dedup]
    exact DD.reach_vars ha v hv)

/-- Up to 1000 levels a number of solutions has a relative error of at most one unit in the last place for each level,
and it is 0 for the constant false function only. -/
theorem C88_solutions_relative_error (hr : Nearest rnd) (hm : m.Mono) (f : BDD m) (tl : Nat)
    (htl : tl = terminalLevel [[f]]) (h1000 : tl ≤ 1000) (a : Edge) (ha : a ∈ f.edge.n.reach f.edge.neg) (i : Nat)
    (hi : a.n = .one ∧ i = tl ∨ ∃ t c e, a.n = .node i t c e) :
    ∃ q, NMap.find (countSolutionsF rnd f) a = some q ∧ IsDouble q ∧ 0 ≤ q ∧
      |q - countFrom i (tl - i) a.eval| ≤ tl / 2 ^ 52 * countFrom i (tl - i) a.eval ∧
      (q = 0 ↔ ∀ x, a.eval x = false) := by
  subst htl
  have hv := edge_vars_lt_terminal f ha
  have hwf := DD.reach_wf f.wf ha
  have h64 : terminalLevel [[f]] ≤ 2 ^ 64 := h1000.trans (by norm_num)
  have he := C19_count_solutions hm f _ rfl h64 a ha i hi
  rw [countSolutions_find f ha, Option.some.injEq] at he
  have he' : memoPure (solutionStep (terminalLevel [[f]])) a.n a.neg = countFrom i (terminalLevel [[f]] - i) a.eval := he
  obtain ⟨h1, h2, -⟩ := solF_rel hr hm _ h1000 a.n a.neg hwf hv
  have hn := solF_near hr hm _ h1000 a hwf hv
  have hz := solF_zero hr hm _ h1000 a hwf hv
  refine ⟨solF rnd (terminalLevel [[f]]) a, countSolutionsF_find rnd f ha, h1, h2, ?_, ?_⟩
  · rwa [he'] at hn
  · rw [hz, solPure_weight' hm _ h64 a hwf hv, solWeight,
      mul_eq_zero_iff_right (pow_ne_zero _ (by norm_num)), ← frac_onSet _ a hwf hv]
    constructor
    · intro h0 x
      by_contra hx
      exact ((frac_pos_iff (a := a) hwf).mpr ⟨x, by simpa using hx⟩).ne' h0
    · intro h0
      by_contra hne
      obtain ⟨x, hx⟩ := (frac_pos_iff (a := a) hwf).mp (lt_of_le_of_ne (frac_bounds (a := a) hwf).1 (Ne.symm hne))
      rw [h0 x] at hx
      cases hx

/-- Up to 1000 levels `round_up` does what C72 says with numbers of solutions that are off by a relative error of at
most `tl / 2 ^ 52`. -/
theorem C88_round_up (hr : Nearest rnd) (hm : m.Mono) (f : BDD m) (ls le tl : Nat) (htl : tl = terminalLevel [[f]])
    (h1000 : tl ≤ 1000) : ∃ (μ : (Asg → Bool) → ℚ) (r : BDD m),
      (∀ g, |μ g - onSet tl g * 2 ^ (tl - firstVar tl g)| ≤ tl / 2 ^ 52 * (onSet tl g * 2 ^ (tl - firstVar tl g))) ∧
      roundUpF rnd f ls le = .ok r ∧ ∀ x,
        (HitAt μ false ls le f.eval x → r.eval x = true) ∧
        (¬ HitAt μ false ls le f.eval x → r.eval x = f.eval x) := by
  subst htl
  obtain ⟨r, hr', hs⟩ := roundUpF_sem' rnd f ls le
  refine ⟨solWeightF m rnd (terminalLevel [[f]]), r, solWeightF_near hr hm _ h1000, hr', fun x => ?_⟩
  have := removeSem_eq hm _ (solWeightF m rnd (terminalLevel [[f]])) (solF rnd (terminalLevel [[f]]))
    (fun a ha hv => solWeightF_eq _ a ha hv) ls le false false f.edge.n f.wf
    (edge_vars_lt_terminal f (DD.self_mem_reach _ _)) f.edge.neg x
  rw [hs x]
  exact this

/-- The same for `round_down`. -/
theorem C88_round_down (hr : Nearest rnd) (hm : m.Mono) (f : BDD m) (ls le tl : Nat) (htl : tl = terminalLevel [[f]])
    (h1000 : tl ≤ 1000) : ∃ (μ : (Asg → Bool) → ℚ) (r : BDD m),
      (∀ g, |μ g - onSet tl g * 2 ^ (tl - firstVar tl g)| ≤ tl / 2 ^ 52 * (onSet tl g * 2 ^ (tl - firstVar tl g))) ∧
      roundDownF rnd f ls le = .ok r ∧ ∀ x,
        (HitAt μ false ls le f.eval x → r.eval x = false) ∧
        (¬ HitAt μ false ls le f.eval x → r.eval x = f.eval x) := by
  subst htl
  obtain ⟨r, hr', hs⟩ := roundDownF_sem' rnd f ls le
  refine ⟨solWeightF m rnd (terminalLevel [[f]]), r, solWeightF_near hr hm _ h1000, hr', fun x => ?_⟩
  have := removeSem_eq hm _ (solWeightF m rnd (terminalLevel [[f]])) (solF rnd (terminalLevel [[f]]))
    (fun a ha hv => solWeightF_eq _ a ha hv) ls le false true f.edge.n f.wf
    (edge_vars_lt_terminal f (DD.self_mem_reach _ _)) f.edge.neg x
  rw [hs x]
  exact this

/-- The rounded weights are close, and so are the rounded differences. -/
theorem weightF_close (hr : Nearest rnd) (N : Nat) (h1021 : N ≤ 1021) (g : Asg → Bool) :
    |weightF m rnd N g - onSet N g| ≤ (N : ℚ) / 2 ^ 52 ∧
      |rnd (1 - weightF m rnd N g) - (1 - weightF m rnd N g)| ≤ 1 / 2 ^ 53 := by
  obtain ⟨h0, h1⟩ := weightF_range (m := m) hr N g
  exact ⟨(weightF_near hr N h1021 g).trans (mul_le_of_le_one_right (by positivity) (onSet_bounds N g).2),
    hr.abs_err (by linarith) (by linarith)⟩

/-- Up to 1021 variables: at a single level `round_best` replaces one child with nearly the least local error, unless
the two counts nearly agree or nearly add up to 1. -/
theorem C88_round_best (hr : Nearest rnd) (hm : m.Mono) (f : BDD m) (N : Nat) (hN : Fits N [f]) (h1021 : N ≤ 1021)
    (j : Nat) (hj : j < N) : ∃ r, roundBestF rnd f j j = .ok r ∧ ∀ x,
      (¬ DepAt f.eval j x → r.eval x = f.eval x) ∧
      (DepAt f.eval j x →
        (2 * N + 1) / 2 ^ 52 < |onSet N (cofAt f.eval j x true) - onSet N (cofAt f.eval j x false)| →
        (2 * N + 1) / 2 ^ 52 < |onSet N (cofAt f.eval j x true) + onSet N (cofAt f.eval j x false) - 1| →
        OneChildReplaced f.eval r.eval j x ∧
        ∀ h : Asg → Bool, OneChildReplaced f.eval h j x →
          localErr N f.eval r.eval j x ≤ localErr N f.eval h j x + (N + 1) / 2 ^ 52) := by
  obtain ⟨r, hr', hs⟩ := roundBestF_level (rnd := rnd) hm f N hN j
  refine ⟨r, hr', fun x => ⟨(hs x).2, fun hd k1 k2 => ?_⟩⟩
  obtain ⟨h1, h2⟩ := (localErr_bestF N f.eval r.eval j hj x (weightF_close hr N h1021 _).1 (weightF_close hr N h1021 _).1
    (weightF_close hr N h1021 _).2 (weightF_close hr N h1021 _).2 (by positivity) (by positivity) ((hs x).1 hd)).1
    (lt_of_le_of_lt (by norm_num; linarith) k1) (lt_of_le_of_lt (by norm_num; linarith) k2)
  refine ⟨h1, fun h hh => ?_⟩
  have h3 := competitor_bound N f.eval h j hj x hh
  have : (N : ℚ) / 2 ^ 52 + 1 / 2 ^ 53 / 2 ≤ (N + 1) / 2 ^ 52 := by norm_num; linarith
  linarith

/-- In all cases the error rate is at most twice that of any function that replaces one child by a terminal, up to the
errors of the counts. -/
theorem C88_round_best_factor_two (hr : Nearest rnd) (hm : m.Mono) (f : BDD m) (N : Nat) (hN : Fits N [f])
    (h1021 : N ≤ 1021) (j : Nat) (hj : j < N) : ∃ r, roundBestF rnd f j j = .ok r ∧
      ∀ h : Asg → Bool, (∀ x, DepAt f.eval j x → OneChildReplaced f.eval h j x) →
        errRate N f.eval r.eval ≤ 2 * errRate N f.eval h + (3 * N + 1) / 2 ^ 52 := by
  obtain ⟨r, hr', hs⟩ := roundBestF_level (rnd := rnd) hm f N hN j
  refine ⟨r, hr', fun h hh => ?_⟩
  rw [errRate_tower N j, errRate_tower N j f.eval h, ← mean_mul_left, ← mean_const N ((3 * N + 1) / 2 ^ 52),
    ← mean_add]
  apply mean_mono
  intro x
  have hpos : (0 : ℚ) ≤ (3 * N + 1) / 2 ^ 52 := by positivity
  by_cases hd : DepAt f.eval j x
  · have h1 := (localErr_bestF N f.eval r.eval j hj x (weightF_close hr N h1021 _).1 (weightF_close hr N h1021 _).1
    (weightF_close hr N h1021 _).2 (weightF_close hr N h1021 _).2 (by positivity) (by positivity) ((hs x).1 hd)).2
    have h2 := competitor_bound N f.eval h j hj x (hh x hd)
    have : 3 * ((N : ℚ) / 2 ^ 52) + 1 / 2 ^ 53 / 2 ≤ (3 * N + 1) / 2 ^ 52 := by norm_num; linarith
    linarith
  · have : localErr N f.eval r.eval j x = 0 := by
      rw [localErr, errRate_eq]
      apply mean_xor_self
      funext y
      have : ¬ DepAt f.eval j (mix j x y) := by
        rintro ⟨z, hz⟩
        exact hd ⟨z, by simpa only [cofAt, mix_mix] using hz⟩
      exact (hs _).2 this
    rw [this]
    have : 0 ≤ localErr N f.eval h j x := by
      rw [localErr, errRate_eq]; exact (mean_ind_bounds N _).1
    linarith

/-- A function over 60 levels, and a rounding. -/
example : ∃ rnd, Nearest rnd ∧ Mgr.id.Mono ∧
    terminalLevel [[(⟨⟨false, orDD 0 59⟩, orDD_wf _ _⟩ : BDD Mgr.id)]] ≤ 1000 := by
  obtain ⟨rnd, h⟩ := exists_nearest
  refine ⟨rnd, h, Mgr.id_mono, terminalLevel_le (by norm_num) (fun g hg b hb v hv => ?_)⟩
  simp only [List.mem_singleton] at hg
  subst hg
  simp only [List.mem_singleton] at hb
  subst hb
  unfold BDD.supportIndices at hv
  rw [List.mem_dedup] at hv
  have := orDD_vars _ _ hv
  omega

/-- A function whose counts are far apart: the children of `x0 ∧ x1` at level 0 have ON-sets 1/2 and 0. -/
example : Fits 2 [(BDD.var 0 : BDD Mgr.id).and (.var 1)] ∧ ∀ x,
    DepAt ((BDD.var 0 : BDD Mgr.id).and (.var 1)).eval 0 x ∧
    (2 * (2 : Nat) + 1 : ℚ) / 2 ^ 52 < |onSet 2 (cofAt ((BDD.var 0 : BDD Mgr.id).and (.var 1)).eval 0 x true) -
      onSet 2 (cofAt ((BDD.var 0 : BDD Mgr.id).and (.var 1)).eval 0 x false)| ∧
    (2 * (2 : Nat) + 1 : ℚ) / 2 ^ 52 < |onSet 2 (cofAt ((BDD.var 0 : BDD Mgr.id).and (.var 1)).eval 0 x true) +
      onSet 2 (cofAt ((BDD.var 0 : BDD Mgr.id).and (.var 1)).eval 0 x false) - 1| := by
  refine ⟨by decide +kernel, fun x => ?_⟩
  have h1 : cofAt ((BDD.var 0 : BDD Mgr.id).and (.var 1)).eval 0 x true = fun y => y 1 := by
    funext y; simp [cofAt, mix]
  have h2 : cofAt ((BDD.var 0 : BDD Mgr.id).and (.var 1)).eval 0 x false = fun _ => false := by
    funext y; simp [cofAt]
  have e1 : onSet 2 (fun y => y 1) = 1 / 2 := by simp only [onSet, mean]; decide +kernel
  have e2 : onSet 2 (fun _ => false) = 0 := by simp only [onSet, mean]; decide +kernel
  refine ⟨⟨fun _ => true, by rw [h1, h2]; simp⟩, ?_, ?_⟩
  · rw [h1, h2, e1, e2]; norm_num
  · rw [h1, h2, e1, e2]; norm_num

end Verif

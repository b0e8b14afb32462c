import Verif.Model.FloatRuntime
import Verif.Props.Experiments
import Verif.Props.FloatBenchmark
import Verif.Props.FloatHelper
import Verif.Props.FloatSampling

/-! # C126 the runtime experiments on circuits with `double`s -/

namespace Verif

variable {m : Mgr} {A : AddEnv} {rnd dec cv lg : ℚ → ℚ}

/-! ## `iscas85` -/

/-- What the rounding operations do with one output of `N` inputs if the counts are `double`s. -/
def IscasRoundedF (m : Mgr) (N : Nat) (op : IscasRounding) (level : Nat) (b r : BDD m) : Prop :=
  match op with
  | .roundUp => ∀ x, b.eval x = true → r.eval x = true
  | .roundDown => ∀ x, r.eval x = true → b.eval x = true
  | .roundFull => m.Mono → (∀ x y : Asg, (∀ v < level, x v = y v) → r.eval x = r.eval y) ∧
      (∀ x, onSet N (fun y => b.eval (mix level x y)) * (1 - N / 2 ^ 52) > 1 / 2 → r.eval x = true) ∧
      (∀ x, onSet N (fun y => b.eval (mix level x y)) * (1 + N / 2 ^ 52) ≤ 1 / 2 → r.eval x = false)

theorem iscasRoundF_operator (rnd : ℚ → ℚ) (op : IscasRounding) (level : Nat) (b : BDD m) :
    iscasRoundF rnd op level b = applyOperatorF rnd b (iscasOperator op) level 10000 := by
  cases op <;> rfl

theorem iscasRoundF_ok (hr : Nearest rnd) (N : Nat) (hN : N ≤ 1021) (op : IscasRounding) (level : Nat) (b : BDD m)
    (hb : Fits N [b]) : ∃ r, iscasRoundF rnd op level b = .ok r ∧ (∀ v ∈ r.supportIndices, v ∈ b.supportIndices) ∧
      IscasRoundedF m N op level b r := by
  obtain ⟨r, h1, -, -, -, h2, h3⟩ := C124_apply_operator rnd b (iscasOperator op) level 10000
  refine ⟨r, by rw [iscasRoundF_operator, h1], applyOperatorF_support h1, ?_⟩
  cases op with
  | roundUp => exact h3 (.inr rfl)
  | roundDown => exact h2 (.inl rfl)
  | roundFull =>
    intro hm
    obtain ⟨r', e, h4⟩ := C88_round_bdd hr hm b N hb hN level
    rw [show applyOperatorF rnd b (iscasOperator .roundFull) level 10000 = roundBddF rnd b level from rfl, e] at h1
    cases h1
    exact h4

theorem iscasRoundF_all (hr : Nearest rnd) {N : Nat} (hN : N ≤ 1021) (op : IscasRounding) (level : Nat) :
    ∀ {f : List (BDD m)}, Fits N f →
    ∃ g, roundOutputs (iscasRoundF rnd op level) f = .ok g ∧ Fits N g ∧ List.Forall₂ (IscasRoundedF m N op level) f g
  | [], _ => ⟨[], rfl, by simp [Fits], .nil⟩
  | b :: f, hf => by
      obtain ⟨r, h1, h2, h3⟩ := iscasRoundF_ok hr N hN op level b (fun c hc => hf c (by simp_all))
      obtain ⟨g, h4, h5, h6⟩ := iscasRoundF_all hr hN op level (f := f) (fun c hc => hf c (by simp [hc]))
      refine ⟨r :: g, by simp only [roundOutputs, h1, h4, bind, Except.bind], ?_, .cons h3 h6⟩
      intro c hc v hv
      rcases List.mem_cons.mp hc with rfl | hc
      · exact hf b (by simp) v (h2 v hv)
      · exact h5 c hc v hv

/-- Up to 53 variables rounding of the outputs is exact. -/
theorem roundOutputs_exact (op op' : BDD m → Except Fault (BDD m)) : ∀ {f : List (BDD m)},
    (∀ b ∈ f, op b = op' b) → roundOutputs op f = roundOutputs op' f
  | [], _ => rfl
  | b :: f, h => by
      rw [roundOutputs, roundOutputs, h b (by simp), roundOutputs_exact op op' (f := f) fun c hc => h c (by simp [hc])]

theorem metric_threeF (hr : Nearest A.rnd) (he : A.eps = 1 / 10 ^ 12) (hd : Dec100 dec) (hc : DecToDouble A.rnd cv)
    (hlg : Log2 lg) {metric : BenchMetric} (hmet : metric ∈ [.errorRate, .worstCase, .averageCase]) {N : Nat}
    {f g : List (BDD m)} (hl : f.length = g.length) (hf : Fits N f) (hg : Fits N g) (h1 : 1 ≤ f.length)
    (hran : f.length + 1 + N ≤ 256) (readSize : Nat) (rs : Nat → Nat → Nat → Nat) (fuel : Nat) (s : CTab)
    (hs : s.Sep A.eps) :
    ∃ q t, computeErrorMetricF A dec cv lg readSize rs fuel f g metric s = .ok (q, s) ∧ IsBenchMetric N f g metric t ∧
      0 ≤ q ∧ |q - t| ≤ (N + f.length + 2) / 2 ^ 52 * t ∧
      (N + f.length ≤ 53 → computeErrorMetric readSize rs fuel f g metric = .ok q) := by
  have key : BenchRangeF m N f.length metric ∧ metric ≠ .worstCaseRelativeBinarySearch ∧ metric ≠ .meanSquared ∧
      metric ≠ .averageRelativeApprox ∧ metric ≠ .averageRelativeAdd := by
    simp only [List.mem_cons, List.not_mem_nil, or_false] at hmet
    rcases hmet with rfl | rfl | rfl
    · exact ⟨⟨⟨h1, by omega⟩, by omega, by omega, by simp⟩, by decide, by decide, by decide, by decide⟩
    · exact ⟨⟨show f.length ≤ 255 by omega, by omega, by omega, by simp⟩, by decide, by decide, by decide, by decide⟩
    · exact ⟨⟨show f.length + 1 + N ≤ 256 by omega, by omega, by omega, by simp⟩, by decide, by decide, by decide,
        by decide⟩
  obtain ⟨k1, k2, k3, k4, k5⟩ := key
  obtain ⟨q, t, s', e1, e2, e3, e4, -⟩ := C118_metric_partial hr he hd hc hlg N f g metric (fun _ _ _ => 1)
    (fun _ _ _ => by decide) (2 ^ N + 62) le_rfl hl hf hg k1 s hs k2 k3 k4 k5
  have hsame : computeErrorMetricF A dec cv lg N (fun _ _ _ => 1) (2 ^ N + 62) f g metric s =
      computeErrorMetricF A dec cv lg readSize rs fuel f g metric s := by
    simp only [List.mem_cons, List.not_mem_nil, or_false] at hmet
    rcases hmet with rfl | rfl | rfl <;> rfl
  have hkeep : ∀ q s', computeErrorMetricF A dec cv lg readSize rs fuel f g metric s = .ok (q, s') → s' = s := by
    intro q s' h
    simp only [List.mem_cons, List.not_mem_nil, or_false] at hmet
    rcases hmet with rfl | rfl | rfl <;>
    · obtain ⟨v, -, h⟩ := bind_ok h
      cases h
      rfl
  rw [hsame] at e1
  obtain rfl := hkeep _ _ e1
  refine ⟨q, t, e1, e2, e3, ?_, fun h53 => ?_⟩
  · simp only [List.mem_cons, List.not_mem_nil, or_false] at hmet
    rcases hmet with rfl | rfl | rfl <;> exact e4
  · obtain ⟨q', s'', x1, x2, -⟩ := C118_metric_exact (lg := lg) hr he hd hc N f g metric rs fuel hl hf hg
      (List.length_pos_iff.mp h1) s' hs (.inl ⟨by
        simp only [List.mem_cons, List.not_mem_nil, or_false] at hmet ⊢
        tauto, h53⟩)
    have y1 : computeErrorMetric readSize rs fuel f g metric = .ok q' := by
      rw [← x1]
      simp only [List.mem_cons, List.not_mem_nil, or_false] at hmet
      rcases hmet with rfl | rfl | rfl <;> rfl
    have y2 : computeErrorMetricF A dec cv lg readSize rs fuel f g metric s' = .ok (q', s'') := by
      rw [← x2]
      simp only [List.mem_cons, List.not_mem_nil, or_false] at hmet
      rcases hmet with rfl | rfl | rfl <;> rfl
    rw [e1] at y2
    cases y2
    exact y1

/-- As C101, with `double`s: the printed metric is that of the circuit and its rounding up to a few units in the last
place, and exactly the one of C101 if inputs and outputs are at most 53. -/
theorem C126_iscas85 (hr : Nearest A.rnd) (he : A.eps = 1 / 10 ^ 12) (hd : Dec100 dec) (hc : DecToDouble A.rnd cv)
    (hlg : Log2 lg) (asserts : Bool) (files : String → List AigEvent × Bool) (readSize : Nat)
    (rs : Nat → Nat → Nat → Nat) (fuel : Nat) (metric : BenchMetric) (hmet : metric ∈ [.errorRate, .worstCase, .averageCase])
    (file : Nat) (op : IscasRounding) (level : Nat) (path : String) (ni no : Nat) (es : List AigEvent)
    (hp : iscasFilepath file = .ok path) (hcf : CircuitFile files path ni no es) (hno : 1 ≤ no)
    (hran : no + 1 + ni ≤ 256) (s : CTab) (hs : s.Sep A.eps) :
    ∃ (f g : List (BDD m)) (q t : ℚ),
      benchmarkIscas85F A dec cv lg asserts files readSize rs fuel metric file op level s = .ok (f, g, q, s) ∧
      IsCircuit es no f ∧ Fits ni f ∧ Fits ni g ∧ List.Forall₂ (IscasRoundedF m ni op level) f g ∧
      List.Forall₂ (fun b r => applyOperatorF A.rnd b (iscasOperator op) level 10000 = .ok r) f g ∧
      IsBenchMetric ni f g metric t ∧ 0 ≤ q ∧ |q - t| ≤ (ni + no + 2) / 2 ^ 52 * t ∧
      (op = .roundUp → (∀ x, uAt f x ≤ uAt g x) ∧ (metric = .averageCase →
        t = mean ni (fun x => (uAt g x : ℚ)) - mean ni (fun x => (uAt f x : ℚ)))) ∧
      (op = .roundDown → (∀ x, uAt g x ≤ uAt f x) ∧ (metric = .averageCase →
        t = mean ni (fun x => (uAt f x : ℚ)) - mean ni (fun x => (uAt g x : ℚ)))) ∧
      (ni + no ≤ 53 → benchmarkIscas85 asserts files readSize rs fuel metric file op level = .ok (f, g, q)) := by
  obtain ⟨f, h1, h2, h3⟩ := loadIscas_circuit (m := m) asserts files hp hcf
  obtain ⟨g, h4, h5, h6⟩ := iscasRoundF_all hr (by omega) op level h3
  obtain ⟨q, t, h7, h8, h9, h10, h11⟩ := metric_threeF hr he hd hc hlg hmet h6.length_eq h3 h5 (by rw [h2.1]; exact hno)
    (by rw [h2.1]; exact hran) readSize rs fuel s hs
  rw [h2.1] at h10 h11
  refine ⟨f, g, q, t, ?_, h2, h3, h5, h6,
    (roundOutputs_each h4).imp fun b r h => by rw [← iscasRoundF_operator, h], h8, h9, h10, ?_, ?_, fun h53 => ?_⟩
  · simp only [benchmarkIscas85F, h1, h4, h7, bind, Except.bind]
  · rintro rfl
    have hle := uAt_le_of_implies h6
    refine ⟨hle, ?_⟩
    rintro rfl
    rw [← mean_above hle]
    exact h8
  · rintro rfl
    have hle := fun x => uAt_le_of_implies (f := g) (g := f) (List.forall₂_iff_get.mpr ⟨h6.length_eq.symm, fun i h1 h2 =>
      (List.forall₂_iff_get.mp h6).2 i h2 h1⟩) x
    refine ⟨hle, ?_⟩
    rintro rfl
    rw [← mean_below hle]
    exact h8
  · rw [roundOutputs_exact _ (iscasRound op level) fun b hb => by
      rw [iscasRoundF_operator, C124_apply_operator_exact hr b (fun c hc v hv => by
        rw [List.mem_singleton.mp hc] at hv
        have := h3 b hb v hv
        omega)]
      cases op <;> rfl] at h4
    simp only [benchmarkIscas85, h1, h4, h11 h53, bind, Except.bind]

/-! ## `average_case_error` and `ace_steps` -/

/-- As C102: up to rounding, the difference of the averages of the circuit and its rounding. -/
theorem C126_average_case_error (hr : Nearest A.rnd) (he : A.eps = 1 / 10 ^ 12) (hd : Dec100 dec)
    (hc : DecToDouble A.rnd cv) (hlg : Log2 lg) (asserts : Bool) (files : String → List AigEvent × Bool) (readSize : Nat)
    (rs : Nat → Nat → Nat → Nat) (fuel : Nat) (file level : Nat) (up : Bool) (path : String) (ni no : Nat)
    (es : List AigEvent) (hp : iscasFilepath file = .ok path) (hcf : CircuitFile files path ni no es) (hno : 1 ≤ no)
    (hran : no + 1 + ni ≤ 256) (s : CTab) (hs : s.Sep A.eps) :
    ∃ (f g : List (BDD m)) (q t : ℚ),
      benchmarkAceF A dec cv lg asserts files readSize rs fuel file level up s = .ok (f, g, q, s) ∧
      IsCircuit es no f ∧ Fits ni f ∧ Fits ni g ∧ g.length = no ∧
      List.Forall₂ (fun b r => applyOperatorF A.rnd b (if up then .supersetLight else .subsetLight) level 10000 = .ok r) f g ∧
      0 ≤ q ∧ |q - t| ≤ (ni + no + 2) / 2 ^ 52 * t ∧
      (up = true → (∀ x, uAt f x ≤ uAt g x) ∧
        t = mean ni (fun x => (uAt g x : ℚ)) - mean ni (fun x => (uAt f x : ℚ))) ∧
      (up = false → (∀ x, uAt g x ≤ uAt f x) ∧
        t = mean ni (fun x => (uAt f x : ℚ)) - mean ni (fun x => (uAt g x : ℚ))) ∧
      (ni + no ≤ 53 → benchmarkAce asserts files readSize rs fuel file level up = .ok (f, g, q)) := by
  obtain ⟨f, h1, h2, h3⟩ := loadIscas_circuit (m := m) asserts files hp hcf
  let op : Operator := if up then .supersetLight else .subsetLight
  have hop : (fun orig : BDD m => if up then roundAnyF A.rnd orig level 10000 false false
      else roundAnyF A.rnd orig level 10000 false true) = fun b => applyOperatorF A.rnd b op level 10000 := by
    funext b
    cases up <;> rfl
  obtain ⟨g, h4, h5⟩ := roundOutputs_spec (op := fun b : BDD m => applyOperatorF A.rnd b op level 10000)
    (R := fun b r : BDD m => applyOperatorF A.rnd b op level 10000 = .ok r) (fun b => by
      obtain ⟨r, e⟩ := applyOperatorF_total A.rnd b op level 10000
      exact ⟨r, e, e⟩) f
  have hg := fits_forall₂ h3 (h5.imp fun b r h => applyOperatorF_support h)
  obtain ⟨q, t, h7, h8, h9, h10, h11⟩ := metric_threeF hr he hd hc hlg (metric := .averageCase) (by simp) h5.length_eq h3 hg
    (by rw [h2.1]; exact hno) (by rw [h2.1]; exact hran) readSize rs fuel s hs
  rw [h2.1] at h10 h11
  refine ⟨f, g, q, t, ?_, h2, h3, hg, by rw [← h5.length_eq, h2.1], h5, h9, h10, ?_, ?_, fun h53 => ?_⟩
  · simp only [benchmarkAceF, h1, hop, h4, h7, bind, Except.bind]
  · rintro rfl
    have hle := uAt_le_of_implies (h5.imp fun b r h x hx => by
      obtain ⟨r', e1, -, -, -, -, e2⟩ := C124_apply_operator A.rnd b .supersetLight level 10000
      cases e1.symm.trans h
      exact e2 (.inl rfl) x hx)
    refine ⟨hle, ?_⟩
    rw [← mean_above hle]
    exact h8
  · rintro rfl
    have hle := fun x => uAt_le_of_implies (f := g) (g := f) (List.forall₂_iff_get.mpr ⟨h5.length_eq.symm, fun i h1 h2 =>
      fun x hx => by
        obtain ⟨r', e1, -, -, -, e2, -⟩ := C124_apply_operator A.rnd (f.get ⟨i, h2⟩) .subsetLight level 10000
        cases e1.symm.trans ((List.forall₂_iff_get.mp h5).2 i h2 h1)
        exact e2 (.inl rfl) x hx⟩) x
    refine ⟨hle, ?_⟩
    rw [← mean_below hle]
    exact h8
  · rw [roundOutputs_exact _ (fun orig => if up then supersetLightChild orig level 10000
        else subsetLightChild orig level 10000) fun b hb => by
      rw [C124_apply_operator_exact hr b (fun c hc v hv => by
        rw [List.mem_singleton.mp hc] at hv
        have := h3 b hb v hv
        omega)]
      cases up <;> rfl] at h4
    simp only [benchmarkAce, h1, h4, h11 h53, bind, Except.bind]

/-- As C102: the steps give the vector of `bdd_absolute_difference` and the number `average_case_error` computes from it,
which is the difference of the averages up to rounding. -/
theorem C126_steps (hr : Nearest rnd) (hd : Dec100 dec) (asserts : Bool) (files : String → List AigEvent × Bool)
    (file level : Nat) (differenceOnly : Bool) (path : String) (ni no : Nat) (es : List AigEvent)
    (hp : iscasFilepath file = .ok path) (hcf : CircuitFile files path ni no es) (hran : no + 1 + ni ≤ 256) :
    ∃ (f g d : List (BDD m)) (q t : ℚ), benchmarkAceStepsF rnd dec asserts files file level differenceOnly =
        .ok (f, g, d, if differenceOnly then none else some q) ∧
      IsCircuit es no f ∧ List.Forall₂ (fun b r => applyOperatorF rnd b .supersetHeavy level 10000 = .ok r) f g ∧
      (∀ x, uAt f x ≤ uAt g x) ∧ (∀ x, uAt f x + uAt d x = uAt g x) ∧
      bddAbsoluteDifference .baseTwo f g = .ok d ∧ averageCaseErrorF rnd dec .baseTwo f g = .ok q ∧
      t = mean ni (fun x => (uAt g x : ℚ)) - mean ni (fun x => (uAt f x : ℚ)) ∧ 0 ≤ q ∧
      |q - t| ≤ (ni / 2 ^ 52 + 1 / 10 ^ 98) * t ∧ (ni ≤ 53 → |q - t| ≤ 1 / 10 ^ 98 * t) := by
  obtain ⟨f, h1, h2, h3⟩ := loadIscas_circuit (m := m) asserts files hp hcf
  obtain ⟨g, h4, h5⟩ := roundOutputs_spec (op := fun b : BDD m => applyOperatorF rnd b .supersetHeavy level 10000)
    (R := fun b r : BDD m => applyOperatorF rnd b .supersetHeavy level 10000 = .ok r) (fun b => by
      obtain ⟨r, e⟩ := applyOperatorF_total rnd b .supersetHeavy level 10000
      exact ⟨r, e, e⟩) f
  have hg := fits_forall₂ h3 (h5.imp fun b r h => applyOperatorF_support h)
  have hle := uAt_le_of_implies (h5.imp fun b r h x hx => by
    obtain ⟨r', e1, -, -, -, -, e2⟩ := C124_apply_operator rnd b .supersetHeavy level 10000
    cases e1.symm.trans h
    exact e2 (.inr rfl) x hx)
  have hl := h5.length_eq
  obtain ⟨d0, d, k1, j1, i1, hval⟩ := absdiff_steps hl hle
  obtain ⟨q, q1, q2, q3, q4, -⟩ := C98_average_case_error hr hd f g ni h3 hg (by rw [← hl, h2.1, max_self]; exact hran) _ rfl
  have hq : averageCaseErrorF rnd dec .baseTwo f g = averageValueF rnd dec d := by
    simp only [averageCaseErrorF, i1, bind, Except.bind]
  refine ⟨f, g, d, q, _, ?_, h2, h5, hle, fun x => by have := hval x; omega, i1, q1, mean_above hle, q2, q3, q4⟩
  rw [hq] at q1
  have h4' : roundOutputs (fun orig : BDD m => roundAnyF rnd orig level 10000 true false) f = .ok g := h4
  simp only [benchmarkAceStepsF, h1, h4', k1, j1, q1, bind, Except.bind]
  cases differenceOnly <;> rfl

/-! ## `operators` -/

/-- As C103, whatever the counts are rounded to; with at most 53 inputs the result is that of C103. -/
theorem C126_operators (rnd : ℚ → ℚ) (asserts : Bool) (files : String → List AigEvent × Bool) (file : Nat)
    (op : Operator) (level : Nat) (path : String) (ni no : Nat) (es : List AigEvent) (hp : iscasFilepath file = .ok path)
    (hcf : CircuitFile files path ni no es) :
    ∃ f g : List (BDD m), benchmarkOperatorsF rnd asserts files file op level = .ok (f, g) ∧ IsCircuit es no f ∧
      Fits ni f ∧ Fits ni g ∧ List.Forall₂ (fun b r => applyOperatorF rnd b op level level = .ok r) f g ∧
      (op = .subsetLight ∨ op = .subsetHeavy → ∀ x, uAt g x ≤ uAt f x) ∧
      (op = .supersetLight ∨ op = .supersetHeavy → ∀ x, uAt f x ≤ uAt g x) ∧
      (op = .positiveCofactor → ∀ x, uAt g x = uAt f (Function.update x level true)) ∧
      (op = .negativeCofactor → ∀ x, uAt g x = uAt f (Function.update x level false)) ∧
      (Nearest rnd → ni ≤ 53 → benchmarkOperators asserts files file op level = .ok (f, g)) := by
  obtain ⟨f, h1, h2, h3⟩ := loadIscas_circuit (m := m) asserts files hp hcf
  have hop : ∀ b : BDD m, operatorRoundF rnd op level b = applyOperatorF rnd b op level level := fun b => by cases op <;> rfl
  have hop' : ∀ b : BDD m, operatorRound op level b = applyOperator b op level level := fun b => by cases op <;> rfl
  obtain ⟨g, h4, h5⟩ := roundOutputs_spec (op := operatorRoundF rnd op level)
    (R := fun b r : BDD m => applyOperatorF rnd b op level level = .ok r) (fun b => by
      obtain ⟨r, hr⟩ := applyOperatorF_total rnd b op level level
      exact ⟨r, by rw [hop]; exact hr, hr⟩) f
  have hspec := h5.imp fun b r h => show _ ∧ _ ∧ _ ∧ _ from by
    obtain ⟨r', e1, e2⟩ := C124_apply_operator rnd b op level level
    cases e1.symm.trans h
    exact e2.2
  have hflip : List.Forall₂ (fun r b : BDD m => op = .subsetLight ∨ op = .subsetHeavy →
      ∀ x, r.eval x = true → b.eval x = true) g f :=
    List.forall₂_iff_get.mpr ⟨h5.length_eq.symm, fun i h1 h2 => ((List.forall₂_iff_get.mp hspec).2 i h2 h1).2.2.1⟩
  have cof : ∀ c : Bool, List.Forall₂ (fun b r : BDD m => ∀ x, r.eval x = b.eval (Function.update x level c)) f g →
      ∀ x, uAt g x = uAt f (Function.update x level c) := by
    intro c h x
    clear hspec hflip h1 h2 h3 h4 h5
    induction h with
    | nil => rfl
    | cons h _ ih => rw [uAt_cons, uAt_cons, ih, h x]
  refine ⟨f, g, by simp only [benchmarkOperatorsF, h1, h4, bind, Except.bind], h2, h3,
    fits_forall₂ h3 (h5.imp fun b r h => applyOperatorF_support h), h5, fun ho => ?_, fun ho => ?_, fun ho => ?_,
    fun ho => ?_, fun hr h53 => ?_⟩
  · exact uAt_le_of_implies (hflip.imp fun r b h => h ho)
  · exact uAt_le_of_implies (hspec.imp fun b r h => h.2.2.2 ho)
  · exact cof true (hspec.imp fun b r h => h.1 ho)
  · exact cof false (hspec.imp fun b r h => h.2.1 ho)
  · rw [roundOutputs_exact _ (operatorRound op level) fun b hb => by
      rw [hop, hop', C124_apply_operator_exact hr b (fun c hc v hv => by
        rw [List.mem_singleton.mp hc] at hv
        have := h3 b hb v hv
        omega)]] at h4
    simp only [benchmarkOperators, h1, h4, bind, Except.bind]

/-! ## `sampling_methods` -/

/-- As C104: the share of the drawn inputs at which some output is one, up to one rounding. -/
theorem C126_regular (hr : Nearest rnd) (asserts : Bool) (files : String → List AigEvent × Bool) (samples file : Nat)
    (acts : List (Nat × ℚ)) (rs' : Nat → Nat → Nat → Nat) (path : String) (ni no : Nat)
    (es : List AigEvent) (hp : iscasFilepath file = .ok path) (hcf : CircuitFile files path ni no es)
    (h1 : 1 ≤ samples) (h2 : samples < 2 ^ 31) :
    ∃ f : List (BDD m), IsCircuit es no f ∧ ∀ (rs : Nat → Nat → Nat) (k : Nat),
      k = ((List.range samples).filter (fun j => decide (uAt f (drawn ni rs j) ≠ 0))).length →
      ∃ q, benchmarkSamplingF rnd asserts files ni false samples file acts rs rs' = .ok (f, q) ∧ 0 ≤ q ∧ q ≤ 1 ∧
        |q - (k : ℚ) / samples| ≤ 1 / 2 ^ 53 * ((k : ℚ) / samples) ∧ (q = 0 ↔ k = 0) ∧ (q = 1 ↔ k = samples) := by
  obtain ⟨f, g1, g2, g3⟩ := loadIscas_circuit (m := m) asserts files hp hcf
  have hl : f.length = (zerosLike f).length := by simp [zerosLike]
  refine ⟨f, g2, fun rs k hk => ?_⟩
  obtain ⟨q, e1, e2⟩ := C123_sampling hr f (zerosLike f) ni samples rs hl g3 (zeros_fits ni f) h1 h2 k (by
    simpa only [ne_eq, bits_zero] using hk)
  refine ⟨q, ?_, e2⟩
  simp only [benchmarkSamplingF, g1, bind, Except.bind, Bool.false_eq_true, if_false]
  unfold zerosLike at e1
  rw [e1]

/-- As C104, if the shares of two outputs are not tiny beside those of the others (missing: without this the estimate may
be undefined, C123): up to rounding between the largest share of a single output and the sum of the shares; with at
least two outputs of which at most one can be one it is undefined. -/
theorem C126_improved_partial (hr : Nearest rnd) (asserts : Bool) (files : String → List AigEvent × Bool)
    (samples file : Nat) (rs : Nat → Nat → Nat) (rs' : Nat → Nat → Nat → Nat) (path : String) (ni no : Nat)
    (es : List AigEvent) (hp : iscasFilepath file = .ok path) (hcf : CircuitFile files path ni no es)
    (hn : 1 ≤ ni) (hn' : ni ≤ 1000) (hno : no ≤ 1500) (h2 : samples < 2 ^ 30) :
    ∃ f : List (BDD m), IsCircuit es no f ∧ ∀ acts, SortedActsF rnd (ni - 1) (xorDiff f (zerosLike f)) acts →
      ((∃ i j, i < j ∧ j < no ∧ 0 < onesRate ni f i ∧ 0 < onesRate ni f j ∧
          ∀ k, onesRate ni f k ≤ 2 ^ 50 * onesRate ni f i ∧ onesRate ni f k ≤ 2 ^ 50 * onesRate ni f j) →
        ∃ q, benchmarkSamplingF rnd asserts files ni true samples file acts rs rs' = .ok (f, q) ∧
          (∀ i, onesRate ni f i * (1 - ni / 2 ^ 53) ≤ q) ∧ q ≤ 1 ∧
          q ≤ ((List.range no).map (onesRate ni f)).sum * (1 + (ni + no) / 2 ^ 52)) ∧
      (2 ≤ no → (∀ i j, i < j → j < no → f[i]? = some .zero ∨ f[j]? = some .zero) →
        benchmarkSamplingF (m := m) rnd asserts files ni true samples file acts rs rs' = .error .ub) := by
  obtain ⟨f, g1, g2, g3⟩ := loadIscas_circuit (m := m) asserts files hp hcf
  have hl : f.length = (zerosLike f).length := by simp [zerosLike]
  have hfun : bitRate ni f (zerosLike f) = onesRate ni f := funext (bitRate_zeros ni f)
  have hsimp : ∀ acts, benchmarkSamplingF rnd asserts files ni true samples file acts rs rs' =
      (errorRateEfficientSamplingF rnd f (zerosLike f) ni samples acts rs').bind (fun q => .ok (f, q)) := by
    intro acts
    simp only [benchmarkSamplingF, g1, bind, Except.bind, if_true, zerosLike]
  have hz : ∀ i < f.length, (zerosLike f)[i]? = some .zero := fun i hi => by
    simp [zerosLike, hi]
  have hrate : ∀ i, f[i]? = some .zero → bitRate ni f (zerosLike f) i = 0 := fun i h =>
    bitRate_same (by rw [hz i (lt_of_getElem? h), h])
  refine ⟨f, g2, fun acts ha => ⟨fun h => ?_, fun h hone => ?_⟩⟩
  · obtain ⟨q, e1, e2⟩ := C123_efficient_partial hr f _ ni samples acts rs' hl g3 (zeros_fits ni f) hn hn'
      (by rw [g2.1]; exact hno) h2 ha (by rw [hfun, g2.1]; exact h)
    rw [hfun, g2.1] at e2
    exact ⟨q, by rw [hsimp, e1]; rfl, e2⟩
  · have := C123_efficient_undefined hr f _ ni samples acts rs' hl g3 (zeros_fits ni f) hn hn'
      (by rw [g2.1]; exact hno.trans (by norm_num)) ha (by rw [g2.1]; exact h)
      (fun i j hij hj => (hone i j hij (by rw [← g2.1]; exact hj)).imp (hrate i) (hrate j))
    rw [hsimp, this]; rfl

/-- Roundings as in the hypotheses, and a circuit: the conjunction of two inputs. -/
example : (∃ (A : AddEnv) (dec cv lg : ℚ → ℚ) (s : CTab), Nearest A.rnd ∧ A.eps = 1 / 10 ^ 12 ∧ Dec100 dec ∧
      DecToDouble A.rnd cv ∧ Log2 lg ∧ s.Sep A.eps) ∧
    iscasFilepath 1 = .ok "./iscas85/c432.aig" ∧
    CircuitFile andFile "./iscas85/c432.aig" 2 1 [.input 0 2, .input 1 4, .output 0 6, .gate 3 2 4] := by
  obtain ⟨rnd, cv, dec, h1, h2, h3⟩ := exists_conversion
  obtain ⟨lg, h4⟩ := exists_log2
  exact ⟨⟨⟨rnd, 1 / 10 ^ 12, fun n => n⟩, dec, cv, lg, ⟨[1, 0], 0⟩, h1, rfl, h3, h2, h4, C116_new_manager⟩, by rfl,
    andFile_circuit _⟩

/-- On it the experiments give, with exact counts, what C101 to C104 say. -/
example : (benchmarkOperatorsF (m := .id) (fun q => q) true andFile 1 .subsetHeavy 1).toOption =
      some ([(BDD.var 0).and (.var 1)], [.zero]) ∧
    (benchmarkAceStepsF (m := .id) (fun q => q) (fun q => q) true andFile 2 0 false).toOption =
      some ([(BDD.var 0).and (.var 1)], [.var 0], [(BDD.var 0).and (BDD.var 1).not, .zero], some (1 / 4)) ∧
    (benchmarkSamplingF (m := .id) (fun q => q) true andFile 2 false 2 1 [] (fun j _ => j) (fun _ _ _ => 0)).toOption =
      some ([(BDD.var 0).and (.var 1)], 1 / 2) := by
  refine ⟨by decide +kernel, by decide +kernel, by decide +kernel⟩

end Verif

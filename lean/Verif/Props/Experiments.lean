import Verif.Proofs.Experiments
import Verif.Props.Range
import Verif.Props.Prob
import Verif.SpecExperiments

/-! # C101 - C104 the runtime experiments on circuits -/

namespace Verif

variable {m : Mgr}

theorem loadIscas_circuit (asserts : Bool) (files : String → List AigEvent × Bool) {file : Nat} {path : String}
    {ni no : Nat} {es : List AigEvent} (hp : iscasFilepath file = .ok path) (hc : CircuitFile files path ni no es) :
    ∃ f : List (BDD m), loadIscas asserts files file = .ok f ∧ IsCircuit es no f ∧ Fits ni f := by
  obtain ⟨vs, l, a, h1, h2, h3, h4⟩ := hc
  obtain ⟨f, g1, -, g2, g3⟩ := C86_load (m := m) asserts files file path vs ni l no a es h1 h2 h3 h4
  exact ⟨f, g1 hp, ⟨g2, g3⟩, circuit_fits h2 g3⟩

/-- The three metrics of the experiments do not use the random numbers. -/
theorem metric_three {metric : BenchMetric} (hmet : metric ∈ [.errorRate, .worstCase, .averageCase]) {N : Nat}
    {f g : List (BDD m)} (hl : f.length = g.length) (hf : Fits N f) (hg : Fits N g) (h1 : 1 ≤ f.length)
    (hr : f.length + 1 + N ≤ 256) (readSize : Nat) (rs : Nat → Nat → Nat → Nat) (fuel : Nat) :
    ∃ q, computeErrorMetric readSize rs fuel f g metric = .ok q ∧ IsBenchMetric N f g metric q := by
  have key : BenchRange m N f.length metric ∧ metric ≠ .worstCaseRelativeBinarySearch ∧ metric ≠ .meanSquared ∧
      metric ≠ .averageRelativeApprox ∧ metric ≠ .averageRelativeAdd := by
    simp only [List.mem_cons, List.not_mem_nil, or_false] at hmet
    rcases hmet with rfl | rfl | rfl
    · exact ⟨⟨h1, by omega⟩, by decide, by decide, by decide, by decide⟩
    · exact ⟨show f.length ≤ 255 by omega, by decide, by decide, by decide, by decide⟩
    · exact ⟨show f.length + 1 + N ≤ 256 by omega, by decide, by decide, by decide, by decide⟩
  obtain ⟨k1, k2, k3, k4, k5⟩ := key
  obtain ⟨q, e1, e2⟩ := C85_metric_partial N f g metric (fun _ _ _ => 1) (fun _ _ _ => by decide) (2 ^ N + 62) (le_refl _)
    hl hf hg k1 k2 k3 k4 k5
  refine ⟨q, ?_, e2⟩
  rw [← e1]
  simp only [List.mem_cons, List.not_mem_nil, or_false] at hmet
  rcases hmet with rfl | rfl | rfl <;> rfl

/-- The average error if one function is above the other. -/
theorem mean_above {f g : List (BDD m)} {N : Nat} (h : ∀ x, uAt f x ≤ uAt g x) :
    mean N (absErrAt f g) = mean N (fun x => (uAt g x : ℚ)) - mean N (fun x => (uAt f x : ℚ)) := by
  rw [← mean_sub]
  refine mean_congr _ fun x => ?_
  have := h x
  have e : |(uAt f x : Int) - uAt g x| = (uAt g x : Int) - uAt f x := by
    rw [abs_sub_comm]
    exact abs_of_nonneg (by omega)
  unfold absErrAt
  rw [e]
  push_cast
  rfl

theorem mean_below {f g : List (BDD m)} {N : Nat} (h : ∀ x, uAt g x ≤ uAt f x) :
    mean N (absErrAt f g) = mean N (fun x => (uAt f x : ℚ)) - mean N (fun x => (uAt g x : ℚ)) := by
  rw [← mean_above h]
  refine mean_congr _ fun x => ?_
  unfold absErrAt
  rw [abs_sub_comm]

/-! ## C101 `iscas85` -/

/-- What the rounding operations do with one output. -/
def IscasRounded (m : Mgr) (N : Nat) (op : IscasRounding) (level : Nat) (b r : BDD m) : Prop :=
  match op with
  | .roundUp => ∀ x, b.eval x = true → r.eval x = true
  | .roundDown => ∀ x, r.eval x = true → b.eval x = true
  | .roundFull => m.Mono → (∀ x y : Asg, (∀ v < level, x v = y v) → r.eval x = r.eval y) ∧
      (∀ x, r.eval x = true ↔ onSet N (fun y => b.eval (mix level x y)) > 1 / 2)

/-- The operator of the minimisation for a rounding operation. -/
def iscasOperator : IscasRounding → Operator
  | .roundUp => .supersetHeavy
  | .roundDown => .subsetLight
  | .roundFull => .round

theorem iscasRound_operator (op : IscasRounding) (level : Nat) (b : BDD m) :
    iscasRound op level b = applyOperator b (iscasOperator op) level 10000 := by
  cases op <;> rfl

theorem roundOutputs_each {op : BDD m → Except Fault (BDD m)} : ∀ {f g : List (BDD m)}, roundOutputs op f = .ok g →
    List.Forall₂ (fun b r => op b = .ok r) f g
  | [], g, h => by
      cases h
      exact .nil
  | b :: f, g, h => by
      unfold roundOutputs at h
      obtain ⟨r, h1, h⟩ := bind_ok h
      obtain ⟨rs, h2, h⟩ := bind_ok h
      cases h
      exact .cons h1 (roundOutputs_each h2)

theorem iscasRound_ok (N : Nat) (op : IscasRounding) (level : Nat) (b : BDD m) (hb : Fits N [b]) :
    ∃ r, iscasRound op level b = .ok r ∧ (∀ v ∈ r.supportIndices, v ∈ b.supportIndices) ∧
      IscasRounded m N op level b r := by
  cases op with
  | roundUp =>
    obtain ⟨r, h1, h2⟩ := (C49_superset_operators b level 10000).2.1
    exact ⟨r, h1, C77_operator_support b r .supersetHeavy level 10000 h1, h2⟩
  | roundDown =>
    obtain ⟨r, h1, h2⟩ := (C48_subset_operators b level 10000).1
    exact ⟨r, h1, C77_operator_support b r .subsetLight level 10000 h1, h2⟩
  | roundFull =>
    obtain ⟨r, h1⟩ := (C61_apply_operator b level level).2.2.2.2.2.2 .round
    refine ⟨r, h1, C77_operator_support b r .round level level h1, fun hm => ?_⟩
    obtain ⟨r', h2, h3, h4, -⟩ := C52_round_bdd hm b N hb level
    have e : roundBdd b level = .ok r := h1
    rw [h2] at e
    cases e
    exact ⟨h3, h4⟩

theorem iscasRound_all {N : Nat} (op : IscasRounding) (level : Nat) : ∀ {f : List (BDD m)}, Fits N f →
    ∃ g, roundOutputs (iscasRound op level) f = .ok g ∧ Fits N g ∧ List.Forall₂ (IscasRounded m N op level) f g
  | [], _ => ⟨[], rfl, by simp [Fits], .nil⟩
  | b :: f, hf => by
      obtain ⟨r, h1, h2, h3⟩ := iscasRound_ok N op level b (fun c hc => hf c (by simp_all))
      obtain ⟨g, h4, h5, h6⟩ := iscasRound_all op level (f := f) (fun c hc => hf c (by simp [hc]))
      refine ⟨r :: g, by simp only [roundOutputs, h1, h4, bind, Except.bind], ?_, .cons h3 h6⟩
      intro c hc v hv
      rcases List.mem_cons.mp hc with rfl | hc
      · exact hf b (by simp) v (h2 v hv)
      · exact h5 c hc v hv

/-- A measurement computes the metric of the circuit in the file and its rounding.  Rounding up only adds, rounding
down only removes ones, so that the average error is the difference of the averages; `round_bdd` leaves the
majority functions of the variables before the level. -/
theorem C101_iscas85 (asserts : Bool) (files : String → List AigEvent × Bool) (readSize : Nat)
    (rs : Nat → Nat → Nat → Nat) (fuel : Nat) (metric : BenchMetric) (hmet : metric ∈ [.errorRate, .worstCase, .averageCase])
    (file : Nat) (op : IscasRounding) (level : Nat) (path : String) (ni no : Nat) (es : List AigEvent)
    (hp : iscasFilepath file = .ok path) (hc : CircuitFile files path ni no es) (hno : 1 ≤ no)
    (hr : no + 1 + ni ≤ 256) :
    ∃ (f g : List (BDD m)) (q : ℚ), benchmarkIscas85 asserts files readSize rs fuel metric file op level = .ok (f, g, q) ∧
      IsCircuit es no f ∧ Fits ni f ∧ Fits ni g ∧ List.Forall₂ (IscasRounded m ni op level) f g ∧
      List.Forall₂ (fun b r => applyOperator b (iscasOperator op) level 10000 = .ok r) f g ∧
      IsBenchMetric ni f g metric q ∧
      (op = .roundUp → (∀ x, uAt f x ≤ uAt g x) ∧ (metric = .averageCase →
        q = mean ni (fun x => (uAt g x : ℚ)) - mean ni (fun x => (uAt f x : ℚ)))) ∧
      (op = .roundDown → (∀ x, uAt g x ≤ uAt f x) ∧ (metric = .averageCase →
        q = mean ni (fun x => (uAt f x : ℚ)) - mean ni (fun x => (uAt g x : ℚ)))) := by
  obtain ⟨f, h1, h2, h3⟩ := loadIscas_circuit (m := m) asserts files hp hc
  obtain ⟨g, h4, h5, h6⟩ := iscasRound_all op level h3
  obtain ⟨q, h7, h8⟩ := metric_three hmet h6.length_eq h3 h5 (by rw [h2.1]; exact hno) (by rw [h2.1]; exact hr)
    readSize rs fuel
  refine ⟨f, g, q, ?_, h2, h3, h5, h6, (roundOutputs_each h4).imp fun b r h => by rw [← iscasRound_operator, h], h8, ?_, ?_⟩
  · simp only [benchmarkIscas85, h1, h4, h7, bind, Except.bind]
  · rintro rfl
    have hle := uAt_le_of_implies h6
    refine ⟨hle, ?_⟩
    rintro rfl
    rw [← mean_above hle]
    exact h8
  · rintro rfl
    have hle := fun x => uAt_le_of_implies (f := g) (g := f) (List.forall₂_iff_get.mpr ⟨h6.length_eq.symm, fun i h1 h2 =>
      (List.forall₂_iff_get.mp h6).2 i h2 h1⟩) x
    refine ⟨hle, ?_⟩
    rintro rfl
    rw [← mean_below hle]
    exact h8

/-- The label of a measurement tells metric, circuit, operation and level. -/
theorem C101_label (metric metric' : BenchMetric) (file file' : Nat) (op op' : IscasRounding) (level level' : Nat)
    (s : List Char) (h : iscasLabel metric file op level = .ok s) (h' : iscasLabel metric' file' op' level' = .ok s) :
    metric = metric' ∧ file = file' ∧ op = op' ∧ level = level' := by
  unfold iscasLabel at h h'
  obtain ⟨n, hn, h⟩ := bind_ok h
  obtain ⟨n', hn', h'⟩ := bind_ok h'
  have e := Except.ok.inj (h.trans h'.symm)
  have l0 : "(".toList = ['('] := by decide
  have l1 : "->".toList = ['-', '>'] := by decide
  have l2 : ") - ".toList = [')', ' ', '-', ' '] := by decide
  simp only [l0, l1, l2, List.append_assoc, List.cons_append, List.nil_append] at e
  obtain ⟨e1, e2⟩ := char_split (iscasFilename_chars hn).1 (iscasFilename_chars hn').1 e
  obtain ⟨e3, e4⟩ := char_split (by cases op <;> decide) (by cases op' <;> decide) e2
  obtain ⟨e5, e6⟩ := char_split (digits_no (by decide) _) (digits_no (by decide) _) (List.cons.inj e4).2
  have e7 := (List.cons.inj (List.cons.inj (List.cons.inj e6).2).2).2
  refine ⟨C85_names.1 _ _ (String.toList_inj.mp e7), ?_, ?_, ?_⟩
  · rw [String.toList_inj.mp e1] at hn
    exact iscasFilename_inj hn hn'
  · have : ∀ a b : IscasRounding, iscasRoundingText a = iscasRoundingText b → a = b := by
      intro a b
      cases a <;> cases b <;> first | (intro _; rfl) | (intro h; revert h; decide)
    exact this _ _ (String.toList_inj.mp e3)
  · have := toDigits_inj e5
    omega

/-- Every measurement of the table is of a known circuit and one of the three metrics, and no two have the same
label. -/
theorem C101_table : iscas85Args.length = 60 ∧
    (∀ a ∈ iscas85Args, a.1 ∈ [.errorRate, .worstCase, .averageCase] ∧ ∃ s, iscasLabel a.1 a.2.1 a.2.2.1 a.2.2.2 = .ok s) ∧
    iscas85Args.Pairwise fun a b =>
      iscasLabel a.1 a.2.1 a.2.2.1 a.2.2.2 ≠ iscasLabel b.1 b.2.1 b.2.2.1 b.2.2.2 := by
  have hok : ∀ a ∈ iscas85Args, ∃ s, iscasLabel a.1 a.2.1 a.2.2.1 a.2.2.2 = .ok s := by
    intro a ha
    have hf : ∀ a ∈ iscas85Args, a.2.1 < 11 := by decide
    have hn : ∃ n, iscasFilename a.2.1 = .ok n := by
      have := hf a ha
      unfold iscasFilename fileById
      rw [if_neg (by simpa using this)]
      exact ⟨_, vget_eq _ _ "" (by simpa using this)⟩
    obtain ⟨n, hn⟩ := hn
    exact ⟨_, by simp only [iscasLabel, hn, bind, Except.bind]; rfl⟩
  refine ⟨by decide, fun a ha => ⟨?_, hok a ha⟩, ?_⟩
  · have : ∀ a ∈ iscas85Args, a.1 ∈ [BenchMetric.errorRate, .worstCase, .averageCase] := by decide
    exact this a ha
  · have hnd : iscas85Args.Pairwise (· ≠ ·) := by decide
    refine hnd.imp_of_mem fun {a b} ha hb hab e => hab ?_
    obtain ⟨s, hs⟩ := hok a ha
    obtain ⟨h1, h2, h3, h4⟩ := C101_label _ _ _ _ _ _ _ _ s hs (e ▸ hs)
    exact Prod.ext h1 (Prod.ext h2 (Prod.ext h3 h4))

/-- Every file holds a conjunction. -/
def andFile : String → List AigEvent × Bool :=
  fun _ => ([.header 3 2 0 1 1, .input 0 2, .input 1 4, .output 0 6, .gate 3 2 4], true)

theorem andFile_circuit (path : String) :
    CircuitFile andFile path 2 1 [.input 0 2, .input 1 4, .output 0 6, .gate 3 2 4] := by
  refine ⟨3, 0, 1, by norm_num, ?_, by decide, rfl⟩
  simp only [AigBody]
  decide

example : iscasFilepath 1 = .ok "./iscas85/c432.aig" ∧
    (benchmarkIscas85 (m := .id) true andFile 2 (fun _ _ _ => 1) 0 .averageCase 1 .roundFull 1).toOption =
      some ([(BDD.var 0).and (.var 1)], [.zero], 1 / 4) ∧
    (benchmarkIscas85 (m := .id) true andFile 2 (fun _ _ _ => 1) 0 .averageCase 1 .roundUp 0).toOption =
      some ([(BDD.var 0).and (.var 1)], [.var 0], 1 / 4) := by
  refine ⟨by rfl, by decide +kernel, by decide +kernel⟩

/-! ## C102 `average_case_error` and `ace_steps` -/

/-- The measurement is the difference of the averages of the circuit and its rounding. -/
theorem C102_average_case_error (asserts : Bool) (files : String → List AigEvent × Bool) (readSize : Nat)
    (rs : Nat → Nat → Nat → Nat) (fuel : Nat) (file level : Nat) (up : Bool) (path : String) (ni no : Nat)
    (es : List AigEvent) (hp : iscasFilepath file = .ok path) (hc : CircuitFile files path ni no es) (hno : 1 ≤ no)
    (hr : no + 1 + ni ≤ 256) :
    ∃ (f g : List (BDD m)) (q : ℚ), benchmarkAce asserts files readSize rs fuel file level up = .ok (f, g, q) ∧
      IsCircuit es no f ∧ Fits ni f ∧ Fits ni g ∧ g.length = no ∧
      List.Forall₂ (fun b r => applyOperator b (if up then .supersetLight else .subsetLight) level 10000 = .ok r) f g ∧
      (up = true → (∀ x, uAt f x ≤ uAt g x) ∧
        q = mean ni (fun x => (uAt g x : ℚ)) - mean ni (fun x => (uAt f x : ℚ))) ∧
      (up = false → (∀ x, uAt g x ≤ uAt f x) ∧
        q = mean ni (fun x => (uAt f x : ℚ)) - mean ni (fun x => (uAt g x : ℚ))) := by
  obtain ⟨f, h1, h2, h3⟩ := loadIscas_circuit (m := m) asserts files hp hc
  have hrange : f.length + 1 + ni ≤ 256 := by rw [h2.1]; exact hr
  have hf1 : 1 ≤ f.length := by rw [h2.1]; exact hno
  cases up with
  | true =>
    obtain ⟨g, h4, h5⟩ := roundOutputs_spec (op := fun orig => supersetLightChild orig level 10000)
      (R := fun b r : BDD m => supersetLightChild b level 10000 = .ok r ∧ ∀ x, b.eval x = true → r.eval x = true)
      (fun b => by
        obtain ⟨r, e1, e2⟩ := (C49_superset_operators b level 10000).1
        exact ⟨r, e1, e1, e2⟩) f
    have hle := uAt_le_of_implies (h5.imp fun _ _ h => h.2)
    have hg := fits_forall₂ h3 (h5.imp fun b r h => C77_operator_support b r .supersetLight level 10000 h.1)
    obtain ⟨q, h7, h8⟩ := metric_three (metric := .averageCase) (by simp) h5.length_eq h3 hg hf1 hrange readSize rs fuel
    refine ⟨f, g, q, ?_, h2, h3, hg, by rw [← h5.length_eq, h2.1], h5.imp fun b r h => h.1, fun _ => ⟨hle, ?_⟩,
      fun h => by cases h⟩
    · simp only [benchmarkAce, h1, if_true, h4, h7, bind, Except.bind]
    · rw [← mean_above hle]
      exact h8
  | false =>
    obtain ⟨g, h4, h5⟩ := roundOutputs_spec (op := fun orig => subsetLightChild orig level 10000)
      (R := fun b r : BDD m => subsetLightChild b level 10000 = .ok r ∧ ∀ x, r.eval x = true → b.eval x = true)
      (fun b => by
        obtain ⟨r, e1, e2⟩ := (C48_subset_operators b level 10000).1
        exact ⟨r, e1, e1, e2⟩) f
    have hle := fun x => uAt_le_of_implies (f := g) (g := f) (List.forall₂_iff_get.mpr ⟨h5.length_eq.symm, fun i h1 h2 =>
      ((List.forall₂_iff_get.mp h5).2 i h2 h1).2⟩) x
    have hg := fits_forall₂ h3 (h5.imp fun b r h => C77_operator_support b r .subsetLight level 10000 h.1)
    obtain ⟨q, h7, h8⟩ := metric_three (metric := .averageCase) (by simp) h5.length_eq h3 hg hf1 hrange readSize rs fuel
    refine ⟨f, g, q, ?_, h2, h3, hg, by rw [← h5.length_eq, h2.1], h5.imp fun b r h => h.1, (fun h => by cases h),
      fun _ => ⟨hle, ?_⟩⟩
    · simp only [benchmarkAce, h1, Bool.false_eq_true, if_false, h4, h7, bind, Except.bind]
    · rw [← mean_below hle]
      exact h8

/-- The steps of `bdd_absolute_difference` for a function that is nowhere above the other. -/
theorem absdiff_steps {f g : List (BDD m)} (hl : f.length = g.length) (hle : ∀ x, uAt f x ≤ uAt g x) :
    ∃ d0 d, bddSubtract (f ++ [.zero]) (g ++ [.zero]) = .ok d0 ∧ bddAbs .twosComplement d0 = .ok d ∧
      bddAbsoluteDifference .baseTwo f g = .ok d ∧ ∀ x, (uAt d x : Int) = (uAt g x : Int) - uAt f x := by
  obtain ⟨d0, k1, k2, k3⟩ := C02_bdd_subtract (f ++ [.zero]) (g ++ [.zero]) (by simp [hl])
  have hd0 : d0 ≠ [] := by
    rintro rfl
    simp at k2
  obtain ⟨d, j1, j2, j3⟩ := (C05_bdd_abs d0).2.1 hd0
  obtain ⟨d', i1, i2, i3⟩ := C03_absolute_difference_unsigned f g
  have hval : ∀ x, (uAt d x : Int) = (uAt g x : Int) - uAt f x := by
    intro x
    have a1 := hle x
    have a2 : (uAt g x : Int) < 2 ^ f.length := by
      rw [hl]
      exact_mod_cast uAt_lt g x
    have a3 := k3 x
    have z : ∀ f : List (BDD m), uAt (f ++ [.zero]) x = uAt f x := fun f => by
      rw [uAt_append]
      simp
    rw [z, z, List.length_append, List.length_singleton, pow_succ] at a3
    have a4 := sAt_eq d0 x hd0
    have a5 := uAt_sign d0 x hd0
    have a6 := uAt_lt d0 x
    rw [k2, List.length_append, List.length_singleton, pow_succ] at a4 a5 a6
    rw [j3 x]
    have a7 : sAt d0 x = (uAt f x : Int) - uAt g x := by
      have hpos : (0 : Int) ≤ uAt f x := by omega
      have hcast : ((2 ^ f.length : Nat) : Int) = 2 ^ f.length := by push_cast; rfl
      generalize (2 : Int) ^ f.length = P at *
      generalize 2 ^ f.length = Q at *
      by_cases heq : uAt f x = uAt g x
      · rw [heq] at a3 ⊢
        rw [sub_self, Int.zero_emod] at a3
        have : uAt d0 x = 0 := by exact_mod_cast a3
        rw [this] at a4 a5
        split at a5
        · omega
        · rename_i hn
          rw [if_neg hn] at a4
          rw [a4]
          simp
      · have e : ((uAt f x : Int) - uAt g x) % (P * 2) = (uAt f x : Int) - uAt g x + P * 2 := by
          rw [← Int.add_emod_right]
          exact Int.emod_eq_of_lt (by omega) (by omega)
        rw [e] at a3
        split at a5
        · rename_i hn
          rw [if_pos hn] at a4
          omega
        · omega
    rw [a7, abs_sub_comm]
    exact abs_of_nonneg (by omega)
  have hdd : d' = d := by
    refine eq_of_uAt ?_ fun x => ?_
    · rw [i2, j2, k2, ← hl]
      simp
    · have e1 := i3 x
      have e2 := hval x
      have := hle x
      rw [abs_sub_comm, abs_of_nonneg (by omega)] at e1
      exact_mod_cast e1.trans e2.symm
  subst hdd
  exact ⟨d0, d', k1, j1, i1, hval⟩

/-- The steps done one after the other give the vector of `bdd_absolute_difference` and its average, the
average-case error; the rounded function is nowhere below the circuit. -/
theorem C102_steps (asserts : Bool) (files : String → List AigEvent × Bool) (file level : Nat) (differenceOnly : Bool)
    (path : String) (ni no : Nat) (es : List AigEvent) (hp : iscasFilepath file = .ok path)
    (hc : CircuitFile files path ni no es) (hr : no + 1 + ni ≤ 256) :
    ∃ (f g d : List (BDD m)) (q : ℚ), benchmarkAceSteps asserts files file level differenceOnly =
        .ok (f, g, d, if differenceOnly then none else some q) ∧
      IsCircuit es no f ∧ List.Forall₂ (fun b r => applyOperator b .supersetHeavy level 10000 = .ok r) f g ∧
      (∀ x, uAt f x ≤ uAt g x) ∧ (∀ x, uAt f x + uAt d x = uAt g x) ∧
      bddAbsoluteDifference .baseTwo f g = .ok d ∧ averageCaseError .baseTwo f g = .ok q ∧
      q = mean ni (fun x => (uAt g x : ℚ)) - mean ni (fun x => (uAt f x : ℚ)) := by
  obtain ⟨f, h1, h2, h3⟩ := loadIscas_circuit (m := m) asserts files hp hc
  obtain ⟨g, h4, h5⟩ := roundOutputs_spec (op := fun orig => supersetHeavyChild orig level 10000)
    (R := fun b r : BDD m => supersetHeavyChild b level 10000 = .ok r ∧ ∀ x, b.eval x = true → r.eval x = true)
    (fun b => by
      obtain ⟨r, e1, e2⟩ := (C49_superset_operators b level 10000).2.1
      exact ⟨r, e1, e1, e2⟩) f
  have hle := uAt_le_of_implies (h5.imp fun _ _ h => h.2)
  have hg := fits_forall₂ h3 (h5.imp fun b r h => C77_operator_support b r .supersetHeavy level 10000 h.1)
  have hl := h5.length_eq
  obtain ⟨d0, d', k1, j1, i1, hval⟩ := absdiff_steps hl hle
  have hmean := C33_average_case_error f g ni h3 hg (by rw [← hl, h2.1, max_self]; exact hr)
  have hq : averageCaseError .baseTwo f g = averageValue d' := by
    simp only [averageCaseError, i1, bind, Except.bind]
  refine ⟨f, g, d', _, ?_, h2, h5.imp fun b r h => h.1, hle, fun x => by have := hval x; omega, i1, hmean, mean_above hle⟩
  rw [hq] at hmean
  simp only [benchmarkAceSteps, h1, h4, k1, j1, hmean, bind, Except.bind]
  cases differenceOnly <;> rfl

/-- The labels tell the measurements apart. -/
theorem C102_label (file file' level level' : Nat) (up up' : Bool) (s : List Char) :
    (aceLabel file level up = .ok s → aceLabel file' level' up' = .ok s → file = file' ∧ level = level' ∧ up = up') ∧
    (aceStepsLabel file level up = .ok s → aceStepsLabel file' level' up' = .ok s →
      file = file' ∧ level = level' ∧ up = up') := by
  constructor
  · intro h h'
    unfold aceLabel at h h'
    obtain ⟨n, hn, h⟩ := bind_ok h
    obtain ⟨n', hn', h'⟩ := bind_ok h'
    have e := Except.ok.inj (h.trans h'.symm)
    have l0 : ∀ up : Bool, (if up then "(round_up->" else "(round_down->").toList =
        '(' :: ((if up then "round_up-" else "round_down-").toList ++ ['>']) := by decide
    have l2 : ")".toList = [')'] := by decide
    simp only [l0, l2, List.append_assoc, List.cons_append, List.nil_append] at e
    obtain ⟨e1, e2⟩ := char_split (iscasFilename_chars hn).1 (iscasFilename_chars hn').1 e
    obtain ⟨e3, e4⟩ := char_split (by cases up <;> decide) (by cases up' <;> decide) e2
    obtain ⟨e5, -⟩ := char_split (digits_no (by decide) _) (digits_no (by decide) _) e4
    refine ⟨?_, by have := toDigits_inj e5; omega, ?_⟩
    · rw [String.toList_inj.mp e1] at hn
      exact iscasFilename_inj hn hn'
    · revert e3
      cases up <;> cases up' <;> decide
  · intro h h'
    unfold aceStepsLabel at h h'
    obtain ⟨n, hn, h⟩ := bind_ok h
    obtain ⟨n', hn', h'⟩ := bind_ok h'
    have e := Except.ok.inj (h.trans h'.symm)
    have l0 : "(round_up->".toList = '(' :: "round_up->".toList := by decide
    have l2 : "),".toList = [')', ','] := by decide
    simp only [l0, l2, List.append_assoc, List.cons_append, List.nil_append] at e
    obtain ⟨e1, e2⟩ := char_split (iscasFilename_chars hn).1 (iscasFilename_chars hn').1 e
    obtain ⟨e5, e6⟩ := char_split (digits_no (by decide) _) (digits_no (by decide) _) (List.append_cancel_left e2)
    refine ⟨?_, toDigits_inj e5, ?_⟩
    · rw [String.toList_inj.mp e1] at hn
      exact iscasFilename_inj hn hn'
    · have := (List.cons.inj e6).2
      revert this
      cases up <;> cases up' <;> decide

example : (benchmarkAce (m := .id) true andFile 2 (fun _ _ _ => 1) 0 2 0 true).toOption =
      some ([(BDD.var 0).and (.var 1)], [.one], 3 / 4) ∧
    (benchmarkAceSteps (m := .id) true andFile 2 0 false).toOption =
      some ([(BDD.var 0).and (.var 1)], [.var 0], [(BDD.var 0).and (BDD.var 1).not, .zero], some (1 / 4)) := by
  refine ⟨by decide +kernel, by decide +kernel⟩

/-! ## C103 `operators` -/

/-- The experiment applies, to every output, the operator of the label at the level of the label as the
minimisation does. -/
theorem C103_operators (asserts : Bool) (files : String → List AigEvent × Bool) (file : Nat) (op : Operator)
    (level : Nat) (path : String) (ni no : Nat) (es : List AigEvent) (hp : iscasFilepath file = .ok path)
    (hc : CircuitFile files path ni no es) :
    ∃ f g : List (BDD m), benchmarkOperators asserts files file op level = .ok (f, g) ∧ IsCircuit es no f ∧
      Fits ni f ∧ Fits ni g ∧ List.Forall₂ (fun b r => applyOperator b op level level = .ok r) f g ∧
      (op = .subsetLight ∨ op = .subsetHeavy → ∀ x, uAt g x ≤ uAt f x) ∧
      (op = .supersetLight ∨ op = .supersetHeavy → ∀ x, uAt f x ≤ uAt g x) ∧
      (op = .positiveCofactor → ∀ x, uAt g x = uAt f (Function.update x level true)) ∧
      (op = .negativeCofactor → ∀ x, uAt g x = uAt f (Function.update x level false)) := by
  obtain ⟨f, h1, h2, h3⟩ := loadIscas_circuit (m := m) asserts files hp hc
  have hop : ∀ b : BDD m, operatorRound op level b = applyOperator b op level level := fun b => by cases op <;> rfl
  obtain ⟨g, h4, h5⟩ := roundOutputs_spec (op := operatorRound op level)
    (R := fun b r : BDD m => applyOperator b op level level = .ok r) (fun b => by
      obtain ⟨r, hr⟩ := (C61_apply_operator b level level).2.2.2.2.2.2 op
      exact ⟨r, by rw [hop]; exact hr, hr⟩) f
  have hflip : List.Forall₂ (fun r b : BDD m => applyOperator b op level level = .ok r) g f := List.forall₂_iff_get.mpr ⟨h5.length_eq.symm, fun i h1 h2 => (List.forall₂_iff_get.mp h5).2 i h2 h1⟩
  refine ⟨f, g, by simp only [benchmarkOperators, h1, h4, bind, Except.bind], h2, h3,
    fits_forall₂ h3 (h5.imp fun b r h => C77_operator_support b r op level level h), h5, ?_, ?_, ?_, ?_⟩
  · intro ho x
    refine uAt_le_of_implies (f := g) (g := f) (hflip.imp fun r b h x hx => ?_) x
    rcases ho with rfl | rfl
    · obtain ⟨r', e1, e2⟩ := (C48_subset_operators b level level).1
      rw [(C61_apply_operator b level level).1, e1] at h
      cases h
      exact e2 x hx
    · obtain ⟨r', e1, e2⟩ := (C48_subset_operators b level level).2.1
      rw [(C61_apply_operator b level level).2.1, e1] at h
      cases h
      exact e2 x hx
  · intro ho x
    refine uAt_le_of_implies (h5.imp fun b r h x hx => ?_) x
    rcases ho with rfl | rfl
    · obtain ⟨r', e1, e2⟩ := (C49_superset_operators b level level).1
      rw [(C61_apply_operator b level level).2.2.1, e1] at h
      cases h
      exact e2 x hx
    · obtain ⟨r', e1, e2⟩ := (C49_superset_operators b level level).2.1
      rw [(C61_apply_operator b level level).2.2.2.1, e1] at h
      cases h
      exact e2 x hx
  · rintro rfl x
    clear hflip h1 h2 h3 h4
    induction h5 with
    | nil => rfl
    | @cons b r f g h _ ih =>
      obtain ⟨p, n, e1, -, e3⟩ := C61_cofactor b level level
      rw [e1] at h
      cases h
      rw [uAt_cons, uAt_cons, ih, (e3 x).1]
  · rintro rfl x
    clear hflip h1 h2 h3 h4
    induction h5 with
    | nil => rfl
    | @cons b r f g h _ ih =>
      obtain ⟨p, n, -, e2, e3⟩ := C61_cofactor b level level
      rw [e2] at h
      cases h
      rw [uAt_cons, uAt_cons, ih, (e3 x).2]

theorem C103_label (file file' : Nat) (op op' : Operator) (level level' : Nat) (s : List Char)
    (h : operatorLabel file op level = .ok s) (h' : operatorLabel file' op' level' = .ok s) :
    file = file' ∧ op = op' ∧ level = level' := by
  unfold operatorLabel at h h'
  obtain ⟨n, hn, h⟩ := bind_ok h
  obtain ⟨n', hn', h'⟩ := bind_ok h'
  have e := Except.ok.inj (h.trans h'.symm)
  have l0 : "(".toList = ['('] := by decide
  have l1 : "->".toList = ['-', '>'] := by decide
  have l2 : ")".toList = [')'] := by decide
  simp only [l0, l1, l2, List.append_assoc, List.cons_append, List.nil_append] at e
  obtain ⟨e1, e2⟩ := char_split (iscasFilename_chars hn).1 (iscasFilename_chars hn').1 e
  have e2' : ((operatorText op).toList ++ ['-']) ++ '>' :: (Nat.toDigits 10 (level + 1) ++ [')']) =
      ((operatorText op').toList ++ ['-']) ++ '>' :: (Nat.toDigits 10 (level' + 1) ++ [')']) := by
    simpa [List.append_assoc] using e2
  obtain ⟨e3, e4⟩ := char_split (by cases op <;> decide) (by cases op' <;> decide) e2'
  obtain ⟨e5, -⟩ := char_split (digits_no (by decide) _) (digits_no (by decide) _) e4
  refine ⟨?_, ?_, by have := toDigits_inj e5; omega⟩
  · rw [String.toList_inj.mp e1] at hn
    exact iscasFilename_inj hn hn'
  · revert e3
    cases op <;> cases op' <;> decide

example : (benchmarkOperators (m := .id) true andFile 1 .positiveCofactor 0).toOption =
    some ([(BDD.var 0).and (.var 1)], [.var 1]) := by
  decide +kernel

/-! ## C104 sampling -/

/-- As many constant zeros as `f` has outputs. -/
def zerosLike (f : List (BDD m)) : List (BDD m) := f.map fun _ => .zero

theorem bits_zero (f : List (BDD m)) (x : Asg) :
    bitsAt f x = bitsAt (zerosLike f) x ↔ uAt f x = 0 := by
  induction f with
  | nil => simp [zerosLike, bitsAt, uAt, uval]
  | cons b f ih =>
    rw [uAt_cons]
    simp only [zerosLike, bitsAt, List.map_cons, List.map_map, List.cons.injEq] at ih ⊢
    rw [ih]
    cases h : b.eval x <;> simp [BDD.eval_zero]

theorem zeros_fits (N : Nat) (f : List (BDD m)) : Fits N (zerosLike f) := by
  intro b hb
  obtain ⟨_, -, rfl⟩ := List.mem_map.mp hb
  intro v hv
  rw [BDD.mem_supportIndices] at hv
  obtain ⟨x, hx⟩ := hv
  simp [BDD.eval_zero] at hx

/-- A bit at which two functions differ differs at a positive share of the inputs. -/
theorem bitRate_pos {f g : List (BDD m)} {N : Nat} (hf : Fits N f) (hg : Fits N g) (hN : N ≤ 1024) {i : Nat}
    (hi : i < f.length) (hi' : i < g.length) (hne : f[i]? ≠ g[i]?) : 0 < bitRate N f g i := by
  have hb := List.getElem?_eq_getElem hi
  have hc := List.getElem?_eq_getElem hi'
  have hne' : f[i] ≠ g[i] := fun h => hne (by rw [hb, hc, h])
  obtain ⟨q, -, e2, e3, -, e5⟩ := C35_error_rate [f[i]] [g[i]] N rfl
    (fun b h => by rw [List.mem_singleton.mp h]; exact hf _ (List.getElem_mem hi))
    (fun b h => by rw [List.mem_singleton.mp h]; exact hg _ (List.getElem_mem hi')) hN
  have : bitRate N f g i = q := by
    rw [e2]
    unfold bitRate
    congr 1
    funext x
    simp [bitsAt, hb, hc]
  rw [this]
  refine lt_of_le_of_ne e3 fun h => hne' ?_
  simpa using e5.mp h.symm

theorem bitRate_same {f g : List (BDD m)} {N i : Nat} (h : f[i]? = g[i]?) : bitRate N f g i = 0 := by
  unfold bitRate
  have : (fun x => if (bitsAt f x)[i]? = (bitsAt g x)[i]? then (0 : ℚ) else 1) = fun _ => 0 := by
    funext x
    simp [bitsAt, h]
  rw [this]
  simp [mean]

/-- How often output `i` is one. -/
def onesRate (N : Nat) (f : List (BDD m)) (i : Nat) : ℚ :=
  mean N (fun x => if (bitsAt f x)[i]? = some true then 1 else 0)

theorem bitRate_zeros (N : Nat) (f : List (BDD m)) (i : Nat) :
    bitRate N f (zerosLike f) i = onesRate N f i := by
  unfold bitRate onesRate
  congr 1
  funext x
  simp only [zerosLike, bitsAt, List.getElem?_map, List.map_map]
  cases h : f[i]? with
  | none => simp
  | some b => cases h' : b.eval x <;> simp [h', BDD.eval_zero]

/-- Regular sampling returns the share of the drawn inputs at which some output is one; over all draws its average is
the exact share, and its mean square error is at most `1 / (4 · samples)`. -/
theorem C104_regular (asserts : Bool) (files : String → List AigEvent × Bool) (samples file : Nat)
    (acts : List (Nat × ℚ)) (rs' : Nat → Nat → Nat → Nat) (path : String) (ni no : Nat)
    (es : List AigEvent) (hp : iscasFilepath file = .ok path) (hc : CircuitFile files path ni no es)
    (h1 : 1 ≤ samples) (h2 : samples < 2 ^ 31) :
    ∃ f : List (BDD m), IsCircuit es no f ∧
      (∀ rs : Nat → Nat → Nat, ∃ q, benchmarkSampling asserts files ni false samples file acts rs rs' = .ok (f, q) ∧
        q = (((List.range samples).filter (fun j => decide (uAt f (drawn ni rs j) ≠ 0))).length : ℚ) / samples) ∧
      meanDraws2 samples ni (fun rs => atResult (fun r : List (BDD m) × ℚ => r.2)
        (benchmarkSampling asserts files ni false samples file acts rs rs')) =
          mean ni (fun x => if uAt f x = 0 then 0 else 1) ∧
      meanDraws2 samples ni (fun rs => atResult (fun r : List (BDD m) × ℚ =>
        (r.2 - mean ni (fun x => if uAt f x = 0 then 0 else 1)) ^ 2)
        (benchmarkSampling asserts files ni false samples file acts rs rs')) ≤ 1 / (4 * samples) := by
  obtain ⟨f, g1, g2, g3⟩ := loadIscas_circuit (m := m) asserts files hp hc
  have hl : f.length = (zerosLike f).length := by simp [zerosLike]
  have hmean : mean ni (fun x => if uAt f x = 0 then 0 else 1) =
      mean ni (fun x => if bitsAt f x = bitsAt (zerosLike f) x then 0 else 1) := by
    simp only [bits_zero]
  have hsimp : ∀ rs, benchmarkSampling asserts files ni false samples file acts rs rs' =
      (errorRateSampling f (zerosLike f) ni samples rs).bind (fun q => .ok (f, q)) := by
    intro rs
    simp only [benchmarkSampling, g1, bind, Except.bind, Bool.false_eq_true, if_false, zerosLike]
  have hres : ∀ (φ : ℚ → ℚ) rs, atResult (fun r : List (BDD m) × ℚ => φ r.2)
      (benchmarkSampling asserts files ni false samples file acts rs rs') =
      atResult φ (errorRateSampling f (zerosLike f) ni samples rs) := by
    intro φ rs
    rw [hsimp]
    cases h : errorRateSampling f (zerosLike f) ni samples rs <;> simp [atResult, Except.bind]
  have hpos : (0 : ℚ) < samples := by exact_mod_cast h1
  refine ⟨f, g2, fun rs => ?_, ?_, ?_⟩
  · obtain ⟨q, e1, e2, -⟩ := C37_error_rate_sampling f (zerosLike f) ni samples rs hl g3 (zeros_fits ni f) h1 h2
    refine ⟨q, by rw [hsimp, e1]; rfl, ?_⟩
    simpa only [ne_eq, bits_zero] using e2
  · rw [hmean, ← C91_error_rate_sampling_unbiased f _ ni samples hl g3 (zeros_fits ni f) h1 h2]
    congr 1
    funext rs
    exact hres id rs
  · have := C91_error_rate_sampling_variance f _ ni samples hl g3 (zeros_fits ni f) h1 h2
    simp only at this
    rw [← hmean] at this
    simp only [hres (fun q => (q - mean ni (fun x => if uAt f x = 0 then 0 else 1)) ^ 2)]
    rw [this, div_le_div_iff₀ hpos (by positivity)]
    nlinarith [sq_nonneg (2 * mean ni (fun x => if uAt f x = 0 then (0 : ℚ) else 1) - 1)]

/-- Improved sampling, if two outputs can be one, stays between the largest share of a single output and the sum of the
shares; with at least two outputs of which at most one can be one it is undefined. -/
theorem C104_improved (asserts : Bool) (files : String → List AigEvent × Bool) (samples file : Nat)
    (rs : Nat → Nat → Nat) (rs' : Nat → Nat → Nat → Nat) (path : String) (ni no : Nat)
    (es : List AigEvent) (hp : iscasFilepath file = .ok path) (hc : CircuitFile files path ni no es)
    (hn : 1 ≤ ni) (hn' : ni ≤ 1024) (h2 : samples < 2 ^ 31) :
    ∃ f : List (BDD m), IsCircuit es no f ∧ ∀ acts, SortedActs (xorDiff f (zerosLike f)) acts →
      ((∃ i j, i < j ∧ j < no ∧ f[i]? ≠ some .zero ∧ f[j]? ≠ some .zero) →
        ∃ q, benchmarkSampling asserts files ni true samples file acts rs rs' = .ok (f, q) ∧
          (∀ i, onesRate ni f i ≤ q) ∧ q ≤ 1 ∧ q ≤ ((List.range no).map (onesRate ni f)).sum) ∧
      (2 ≤ no → (∀ i j, i < j → j < no → f[i]? = some .zero ∨ f[j]? = some .zero) →
        benchmarkSampling (m := m) asserts files ni true samples file acts rs rs' = .error .ub) := by
  obtain ⟨f, g1, g2, g3⟩ := loadIscas_circuit (m := m) asserts files hp hc
  have hl : f.length = (zerosLike f).length := by simp [zerosLike]
  have hfun : bitRate ni f (zerosLike f) = onesRate ni f := funext (bitRate_zeros ni f)
  have hsimp : ∀ acts, benchmarkSampling asserts files ni true samples file acts rs rs' =
      (errorRateEfficientSampling f (zerosLike f) ni samples acts rs').bind (fun q => .ok (f, q)) := by
    intro acts
    simp only [benchmarkSampling, g1, bind, Except.bind, if_true, zerosLike]
  have hz : ∀ i < f.length, (zerosLike f)[i]? = some .zero := fun i hi => by
    simp [zerosLike, hi]
  have hrate : (∀ i < f.length, f[i]? ≠ some .zero → 0 < bitRate ni f (zerosLike f) i) ∧
      ∀ i, f[i]? = some .zero → bitRate ni f (zerosLike f) i = 0 :=
    ⟨fun i hi h => bitRate_pos g3 (zeros_fits ni f) hn' hi (by rw [← hl]; exact hi) (by rw [hz i hi]; exact h),
      fun i h => bitRate_same (by rw [hz i (lt_of_getElem? h), h])⟩
  refine ⟨f, g2, fun acts ha => ⟨fun h => ?_, fun h hone => ?_⟩⟩
  · obtain ⟨q, e1, e2⟩ := C38_efficient_sampling_bounds_partial f _ ni samples acts rs' hl g3 (zeros_fits ni f) hn hn' h2
      ha (by
        obtain ⟨i, j, hij, hj, h3, h4⟩ := h
        rw [← g2.1] at hj
        exact ⟨i, j, hij, hj, hrate.1 i (by omega) h3, hrate.1 j hj h4⟩)
    rw [hfun, g2.1] at e2
    exact ⟨q, by rw [hsimp, e1]; rfl, e2⟩
  · have := C38_efficient_sampling_undefined f _ ni samples acts rs' hl g3 (zeros_fits ni f) hn' ha
      (by rw [g2.1]; exact h) (fun i j hij hj => (hone i j hij (by rw [← g2.1]; exact hj)).imp
        (hrate.2 i) (hrate.2 j))
    rw [hsimp, this]; rfl

/-- The label tells circuit, method and number of samples. -/
theorem C104_label (improved improved' : Bool) (samples samples' file file' : Nat) (s : List Char)
    (h : samplingLabel improved samples file = .ok s) (h' : samplingLabel improved' samples' file' = .ok s) :
    improved = improved' ∧ samples = samples' ∧ file = file' := by
  unfold samplingLabel at h h'
  obtain ⟨n, hn, h⟩ := bind_ok h
  obtain ⟨n', hn', h'⟩ := bind_ok h'
  have e := Except.ok.inj (h.trans h'.symm)
  have l0 : " - ".toList = [' ', '-', ' '] := by decide
  have l1 : ": ".toList = [':', ' '] := by decide
  simp only [l0, l1, List.append_assoc, List.cons_append, List.nil_append] at e
  obtain ⟨e1, e2⟩ := char_split (iscasFilename_chars hn).2 (iscasFilename_chars hn').2 e
  obtain ⟨e3, e4⟩ := char_split (by cases improved <;> decide) (by cases improved' <;> decide)
    (List.cons.inj (List.cons.inj e2).2).2
  refine ⟨?_, toDigits_inj (List.cons.inj e4).2, ?_⟩
  · revert e3
    cases improved <;> cases improved' <;> decide
  · rw [String.toList_inj.mp e1] at hn
    exact iscasFilename_inj hn hn'

/-- Rows of `improved_sampling`: what the two columns satisfy. -/
theorem improvedSamplingRows_spec (f g : List (BDD m)) (N : Nat) (acts : List (Nat × ℚ)) (rs : Nat → Nat → Nat → Nat)
    (rs' : Nat → Nat → Nat → Nat → Nat) (hl : f.length = g.length) (hf : Fits N f) (hg : Fits N g) (h0 : 1 ≤ N)
    (h1 : N ≤ 1024) (hacts : SortedActs (xorDiff f g) acts)
    (htwo : ∃ i j, i < j ∧ j < f.length ∧ 0 < bitRate N f g i ∧ 0 < bitRate N f g j) : ∀ k n, 1 ≤ n →
    20000 < n + 100 * k → ∃ rows, improvedSamplingRows f g N acts rs rs' k n = .ok rows ∧
      rows.length = (20100 - n) / 100 ∧
      ∀ j r, rows[j]? = some r → r.1 = n + 100 * j ∧
        r.2.1 = (((List.range r.1).filter (fun j => decide (bitsAt f (drawn N (rs r.1) j) ≠
          bitsAt g (drawn N (rs r.1) j)))).length : ℚ) / r.1 ∧
        (∀ i, bitRate N f g i ≤ r.2.2) ∧ r.2.2 ≤ 1 ∧ r.2.2 ≤ ((List.range f.length).map (bitRate N f g)).sum
  | 0, n, _, hk => ⟨[], rfl, by simp; omega, by simp⟩
  | k + 1, n, h1n, hk => by
    unfold improvedSamplingRows
    by_cases hle : n ≤ 20000
    · rw [if_pos hle]
      obtain ⟨q, e1, e2, -⟩ := C37_error_rate_sampling f g N n (rs n) hl hf hg h1n (by omega)
      obtain ⟨q', e3, e4, e5, e6⟩ := C38_efficient_sampling_bounds_partial f g N n acts (rs' n) hl hf hg h0 h1 (by omega)
        hacts htwo
      obtain ⟨rows, r1, r2, r3⟩ := improvedSamplingRows_spec f g N acts rs rs' hl hf hg h0 h1 hacts htwo k (n + 100)
        (by omega) (by omega)
      refine ⟨(n, q, q') :: rows, by simp only [e1, e3, r1, bind, Except.bind], by
        rw [List.length_cons, r2]; omega, ?_⟩
      intro j r hj
      cases j with
      | zero =>
        cases hj
        exact ⟨by simp, e2, e4, e5, e6⟩
      | succ j =>
        obtain ⟨a, b⟩ := r3 j r hj
        exact ⟨by omega, b⟩
    · rw [if_neg hle]
      exact ⟨[], rfl, by simp; omega, by simp⟩

/-- `improved_sampling` (on a circuit of which the rounding changes two outputs) prints the number of outputs, the exact
error rate and 200 rows for 100, 200, … samples, whose first figure is the share of the drawn inputs on which circuit and
rounding differ and whose second figure obeys the bounds that the error rate itself obeys. -/
theorem C104_comparison (asserts : Bool) (files : String → List AigEvent × Bool)
    (acts : List (BDD m) → List (BDD m) → List (Nat × ℚ)) (rs : Nat → Nat → Nat → Nat)
    (rs' : Nat → Nat → Nat → Nat → Nat) (path : String) (ni no : Nat)
    (es : List AigEvent) (hp : iscasFilepath 3 = .ok path) (hc : CircuitFile files path ni no es)
    (hn : 1 ≤ ni) (hn' : ni ≤ 1024) (hacts : ∀ f g : List (BDD m), SortedActs (xorDiff f g) (acts f g)) :
    ∃ f g : List (BDD m), IsCircuit es no f ∧ List.Forall₂ (fun a b => subsetLightChild a 52 10000000 = .ok b) f g ∧
      (∀ x, uAt g x ≤ uAt f x) ∧
      ((∃ i j, i < j ∧ j < no ∧ f[i]? ≠ g[i]? ∧ f[j]? ≠ g[j]?) →
        ∃ rows, improvedSamplingMain asserts files ni acts rs rs' =
            .ok (f, g, no, mean ni (fun x => if bitsAt f x = bitsAt g x then 0 else 1), rows) ∧
          rows.length = 200 ∧
          ∀ j r, rows[j]? = some r → r.1 = 100 * (j + 1) ∧
            r.2.1 = (((List.range r.1).filter (fun j => decide (bitsAt f (drawn ni (rs r.1) j) ≠
              bitsAt g (drawn ni (rs r.1) j)))).length : ℚ) / r.1 ∧
            (∀ i, bitRate ni f g i ≤ r.2.2) ∧ r.2.2 ≤ 1 ∧
              r.2.2 ≤ ((List.range no).map (bitRate ni f g)).sum) ∧
      (∀ i, bitRate ni f g i ≤ mean ni (fun x => if bitsAt f x = bitsAt g x then 0 else 1)) ∧
      mean ni (fun x => if bitsAt f x = bitsAt g x then 0 else 1) ≤ ((List.range no).map (bitRate ni f g)).sum := by
  obtain ⟨f, g1, g2, g3⟩ := loadIscas_circuit (m := m) asserts files hp hc
  obtain ⟨g, h4, h5⟩ := roundOutputs_spec (op := fun orig => subsetLightChild orig 52 10000000)
    (R := fun b r : BDD m => subsetLightChild b 52 10000000 = .ok r ∧ ∀ x, r.eval x = true → b.eval x = true)
    (fun b => by
      obtain ⟨r, e1, e2⟩ := (C48_subset_operators b 52 10000000).1
      exact ⟨r, e1, e1, e2⟩) f
  have hg := fits_forall₂ g3 (h5.imp fun b r h => C77_operator_support b r .subsetLight 52 10000000 h.1)
  have hl : f.length = g.length := h5.length_eq
  have hB := C38_bounds_enclose_error_rate f g ni hl
  rw [g2.1] at hB
  refine ⟨f, g, g2, h5.imp fun _ _ h => h.1, ?_, fun htwo => ?_, hB⟩
  · exact fun x => uAt_le_of_implies (f := g) (g := f) (List.forall₂_iff_get.mpr ⟨hl.symm, fun i h1 h2 =>
      ((List.forall₂_iff_get.mp h5).2 i h2 h1).2⟩) x
  · replace htwo : ∃ i j, i < j ∧ j < f.length ∧ 0 < bitRate ni f g i ∧ 0 < bitRate ni f g j := by
      obtain ⟨i, j, hij, hj, h1, h2⟩ := htwo
      rw [← g2.1] at hj
      exact ⟨i, j, hij, hj, bitRate_pos g3 hg hn' (by omega) (by omega) h1, bitRate_pos g3 hg hn' hj (by omega) h2⟩
    obtain ⟨rows, r1, r2, r3⟩ := improvedSamplingRows_spec f g ni (acts f g) rs rs' hl g3 hg hn hn' (hacts f g) htwo 201 100
      (by norm_num) (by norm_num)
    obtain ⟨i, j, hij, hj, -⟩ := htwo
    obtain ⟨q, e1, e2, -⟩ := C35_error_rate f g ni hl g3 hg hn'
    refine ⟨rows, ?_, r2, fun j r hj => ?_⟩
    · simp only [improvedSamplingMain, g1, h4, e1, r1, bind, Except.bind, g2.1, e2]
    · have := r3 j r hj
      rw [g2.1] at this
      exact ⟨by omega, this.2⟩

/-- Every file holds two outputs, the first two inputs. -/
def wireFile : String → List AigEvent × Bool :=
  fun _ => ([.header 2 2 0 2 0, .input 0 2, .input 1 4, .output 0 2, .output 1 4], true)

example : (∀ path, CircuitFile wireFile path 2 2 [.input 0 2, .input 1 4, .output 0 2, .output 1 4]) ∧
    SortedActs (xorDiff [(BDD.var 0 : BDD .id), .var 1] (zerosLike [.var 0, .var 1])) [(0, 1 / 2), (1, 1 / 2)] ∧
    (benchmarkSampling (m := .id) true wireFile 2 true 4 1 [(0, 1 / 2), (1, 1 / 2)] (fun _ _ => 0) (fun _ j k => j + k)).toOption
      = some ([.var 0, .var 1], 3 / 4) ∧
    (benchmarkSampling (m := .id) true wireFile 2 false 4 1 [] (fun i v => i * v) (fun _ _ _ => 0)).toOption =
      some ([.var 0, .var 1], 1 / 2) := by
  refine ⟨fun path => ⟨2, 0, 0, by norm_num, ?_, by decide, rfl⟩, ?_, by decide +kernel, by decide +kernel⟩
  · simp only [AigBody]
    decide
  · constructor
    · decide +kernel
    · decide +kernel

/-- Every file holds 54 inputs and, twice, the disjunction of the last two. -/
def wideParts : List AigEvent :=
  (List.range 54).map (fun i => .input i (2 * (i + 1))) ++ [.output 0 111, .output 1 111, .gate 55 107 109]

def wideFile : String → List AigEvent × Bool := fun _ => (.header 55 54 0 2 1 :: wideParts, true)

/-- Both outputs change when rounded from level 52 on. -/
example : (∀ path, CircuitFile wideFile path 54 2 wideParts) ∧
    (loadIscas (m := .id) true wideFile 3).toOption =
      some [(BDD.var 52).or (.var 53), (BDD.var 52).or (.var 53)] ∧
    subsetLightChild ((BDD.var 52 : BDD .id).or (.var 53)) 52 10000000 = .ok (.var 52) ∧
    ((BDD.var 52 : BDD .id).or (.var 53)) ≠ .var 52 := by
  refine ⟨fun path => ⟨55, 0, 1, by norm_num, by decide +kernel, by decide +kernel, rfl⟩, by decide +kernel,
    by decide +kernel, by decide +kernel⟩

end Verif

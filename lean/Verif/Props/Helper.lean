import Verif.Proofs.Helper
import Verif.Proofs.DumpDot
import Verif.Props.WorstCase
import Verif.Props.Average
import Verif.Props.Add
import Verif.Props.Adders
import Verif.Props.Bucket
import Verif.Props.Parsing

/-!
# Named metrics, operators on supports, and the minimisation helper: C75 – C77
-/

namespace Verif

variable {m : Mgr}

/-! ## C75 the named metrics -/

/-- The full claim is that this also holds for the mean squared error, see `C75_mean_squared_false`. -/
theorem C75_metric_function_partial (N : Nat) (f g : List (BDD m)) (met : ErrorMetric)
    (hl : f.length = g.length) (hf : Fits N f) (hg : Fits N g) (hr : MetricRange m N f.length met)
    (hne : met ≠ .meanSquared) :
    ∃ q, metricFunction met f g = .ok q ∧ IsMetric N f g met q := by
  have hs : ∀ h : List (BDD m), SignOk .baseTwo h := fun h e => by cases e
  have hz : ∀ n : Nat, 1 ≤ n → f.length = n → f ≠ [] := by
    rintro n hn e rfl
    simp at e
    omega
  cases met with
  | worstCase =>
    obtain ⟨w, h1, ⟨x, hx⟩, h2⟩ := C25_worst_case_error_unsigned f g hr (hl ▸ hr)
    refine ⟨w, by simp only [metricFunction, h1]; rfl, ⟨x, ?_⟩, fun y => ?_⟩
    · unfold absErrAt
      dsimp only at hx
      rw [hx]
      simp
    · unfold absErrAt
      have := h2 y
      exact_mod_cast this
  | worstCasePercent =>
    obtain ⟨q, h1, -, -, -, h2⟩ := C27_percent f g hl (hz _ hr.1 rfl) hr.2
    exact ⟨q, h1, h2⟩
  | worstCaseRelative => exact C41_wcre_add hr.1 .baseTwo f g (hs f) (hs g) N hf hg hr.2
  | averageCase =>
    have hr' : f.length + 1 + N ≤ 256 := hr
    exact ⟨_, C33_average_case_error f g N hf hg (by rw [← hl, max_self]; exact hr'), rfl⟩
  | averageCaseRelative => exact ⟨_, C47_acre_add hr.1 .baseTwo f g (hs f) (hs g) N hf hg hr.2, rfl⟩
  | averageCaseRelativeAdd => exact ⟨_, C47_acre_add hr.1 .baseTwo f g (hs f) (hs g) N hf hg hr.2, rfl⟩
  | meanSquared => exact absurd rfl hne
  | errorRate =>
    obtain ⟨q, h1, h2, -⟩ := C35_error_rate f g N hl hf hg hr.2
    exact ⟨q, h1, h2⟩
  | averageBitFlip =>
    obtain ⟨q, h1, h2, -⟩ := C40_average_bit_flip_error f g N hl hf hg hr
    exact ⟨q, h1, h2⟩
  | worstCaseBitFlip =>
    obtain ⟨v, h1, ⟨x, hx⟩, h2⟩ := C39_worst_case_bit_flip_error f g hl hr
    refine ⟨v, by simp only [metricFunction, h1]; rfl, ⟨x, ?_⟩, fun y => ?_⟩
    · dsimp only at hx ⊢
      rw [hx]
    · exact Nat.cast_le.mpr (h2 y)

/-- The mean squared error is computed wrongly also through `metric_function` (see C33). -/
theorem C75_mean_squared_false : ∃ f g : List (BDD Mgr.id), f.length = g.length ∧ Fits 2 f ∧ Fits 2 g ∧
    MetricRange .id 2 f.length .meanSquared ∧
    ∃ q, metricFunction .meanSquared f g = .ok q ∧ ¬ IsMetric 2 f g .meanSquared q := by
  refine ⟨[.var 0, .var 1], [.zero, .zero], rfl, by decide +kernel, by decide +kernel,
    by simp [MetricRange], 5 / 2, by decide +kernel, fun h => ?_⟩
  generalize hf : [BDD.var (m := .id) 0, .var 1] = f at h
  generalize hg : [BDD.zero (m := .id), .zero] = g at h
  have h6 : mean 2 (fun x => (((uAt f x : Int) - uAt g x : Int) : ℚ) ^ 2) = 7 / 2 := by
    subst hf hg
    decide +kernel
  have e : (fun x => absErrAt f g x ^ 2) = fun x => (((uAt f x : Int) - uAt g x : Int) : ℚ) ^ 2 := by
    funext x
    unfold absErrAt
    rw [Int.cast_abs, sq_abs]
  unfold IsMetric at h
  rw [e, h6] at h
  norm_num at h

theorem C75_names : (∀ a b, metricToString a = metricToString b → a = b) ∧
    (∀ a b, operatorToString a = operatorToString b → a = b) ∧
    (∀ a, metricToString a ≠ "") ∧ ∀ a, operatorToString a ≠ "" := by
  refine ⟨fun a b => ?_, fun a b => ?_, fun a => ?_, fun a => ?_⟩
  · cases a <;> cases b <;> decide
  · cases a <;> cases b <;> decide
  · cases a <;> decide
  · cases a <;> decide

/-- The two-bit functions `x0 + 2 (x0 xor x1)` and `x0`: all metrics. -/
example : ([.worstCase, .worstCasePercent, .worstCaseRelative, .averageCase, .averageCaseRelative,
    .errorRate, .averageBitFlip, .worstCaseBitFlip].map fun met =>
      metricFunction met [BDD.var (m := .id) 0, (BDD.var 0).xor (.var 1)] [.var 0, .zero]) =
    [.ok 2, .ok (2 / 3), .ok 1, .ok 1, .ok (5 / 12), .ok (1 / 2), .ok (1 / 2), .ok 1] := by decide +kernel

example : ∀ met : ErrorMetric, MetricRange .id 2 2 met := by
  intro met
  have : Mgr.id.Mono := fun a b h => h
  cases met <;> simp [MetricRange, this]

/-! ## C77 operators introduce no variables -/

theorem C77_operator_support (b r : BDD m) (op : Operator) (ls le : Nat)
    (h : applyOperator b op ls le = .ok r) : ∀ v ∈ r.supportIndices, v ∈ b.supportIndices :=
  applyOperator_support h

theorem C77_round_up_down_support (b r : BDD m) (ls le : Nat)
    (h : roundUp b ls le = .ok r ∨ roundDown b ls le = .ok r) :
    ∀ v ∈ r.supportIndices, v ∈ b.supportIndices :=
  h.elim roundUp_support roundDown_support

/-- A cofactor does not depend on its variable any more. -/
theorem C77_cofactor_support (b r : BDD m) (j k : Nat)
    (h : applyOperator b .positiveCofactor j k = .ok r ∨ applyOperator b .negativeCofactor j k = .ok r) :
    j ∉ r.supportIndices := by
  rw [BDD.mem_supportIndices]
  rintro ⟨x, hx⟩
  apply hx
  rcases h with h | h
  · obtain ⟨p, n, h1, -, h3⟩ := C61_cofactor b j k
    rw [h] at h1
    cases h1
    simp [h3]
  · obtain ⟨p, n, -, h2, h3⟩ := C61_cofactor b j k
    rw [h] at h2
    cases h2
    simp [h3]

/-- Whatever the generated operators make of a function has as many bits, over the same variables. -/
theorem C77_generated (f g : List (BDD m)) (info : MinimizationInfo) (rs : Nat → Nat)
    (ops : List (OpFun m)) (h : operatorFunctions f info rs = .ok ops) (hg : Reach ops f g) :
    g.length = f.length ∧ (∀ (i : Nat) (b r : BDD m), f[i]? = some b → g[i]? = some r →
      ∀ v ∈ r.supportIndices, v ∈ b.supportIndices) ∧ ∀ N, Fits N f → Fits N g := by
  have hn := hg.narrows (operatorFunctions_narrows h)
  refine ⟨hn.length_eq.symm, fun i b r hb hr => ?_, fun N => hn.fits⟩
  have h1 := lt_of_getElem? hb
  have h2 := lt_of_getElem? hr
  rw [List.getElem?_eq_getElem h1] at hb
  rw [List.getElem?_eq_getElem h2] at hr
  cases hb
  cases hr
  exact hn.get h1 h2

example : (applyOperator (((BDD.var (m := .id) 0).and (.var 1)).or (.var 2)) .round 1 1).toOption.map
    (·.supportIndices) = some [0] := by decide +kernel

/-! ## C76 the helper -/

theorem C76_load_adder (asserts : Bool) (files : String → List AigEvent × Bool) (input : String) (n : Nat)
    (h : (input, n) ∈ [("adder8", 8), ("adder16", 16), ("adder32", 32)]) :
    ∃ f : List (BDD m), loadInput asserts files input = .ok f ∧ f.length = n + 1 ∧ Fits (2 * n) f ∧
      ∀ x, uAt f x = opA n x + opB n x := by
  obtain ⟨f, h1, h2⟩ := C17_regular_adder (m := m) n
  refine ⟨f, ?_, h2⟩
  simp only [List.mem_cons, Prod.mk.injEq, List.not_mem_nil, or_false] at h
  rcases h with ⟨rfl, rfl⟩ | ⟨rfl, rfl⟩ | ⟨rfl, rfl⟩ <;> exact h1

/-- Any other input is a file: it is refused if lorina reports an error (and the callbacks before the
error went through). -/
theorem C76_load_refused (asserts : Bool) (files : String → List AigEvent × Bool) (input : String)
    (hi : input ∉ ["adder8", "adder16", "adder32"]) (s : AigState m)
    (hrun : aigRun asserts (files input).1 {} = .ok s) (hcode : (files input).2 = false) :
    loadInput (m := m) asserts files input = .error .invalidArgument := by
  simp only [List.mem_cons, List.not_mem_nil, or_false, not_or] at hi
  unfold loadInput loadFile
  rw [if_neg hi.1, if_neg hi.2.1, if_neg hi.2.2, hrun, hcode]
  rfl

/-- A well formed circuit is read as the functions of its outputs. -/
theorem C76_load_circuit (asserts : Bool) (files : String → List AigEvent × Bool) (input : String)
    (hi : input ∉ ["adder8", "adder16", "adder32"]) (vs ni l no a : Nat) (es : List AigEvent)
    (hfile : files input = (.header vs ni l no a :: es, true))
    (hvs : 2 * vs + 2 ≤ 2 ^ 32) (hb : AigBody vs ni no [] es)
    (ho : ∀ j < no, aigOutput j es / 2 = 0 ∨ aigOutput j es / 2 ∈ aigDeclared es) :
    ∃ f : List (BDD m), loadInput asserts files input = .ok f ∧ f.length = no ∧
      ∀ (j : Nat) (b : BDD m), f[j]? = some b →
          ∀ x σ, AigValues es x σ → b.eval x = σ (aigOutput j es) := by
  obtain ⟨s, h1, f, h2, h3⟩ := C67_circuit (m := m) asserts vs ni l no a es hvs hb ho
  refine ⟨f, ?_, h3⟩
  simp only [List.mem_cons, List.not_mem_nil, or_false, not_or] at hi
  unfold loadInput loadFile
  rw [if_neg hi.1, if_neg hi.2.1, if_neg hi.2.2, hfile, h1]
  exact h2

/-- What the helper returns: the size of the input function, the buckets of the minimisation, and among
them a smallest one.  Every function in a bucket has the bits and variables of the input function, it is
smaller unless the bucket is empty, and its stored errors are the true errors and below the bounds.
(The mean squared error is left out, see `C75_mean_squared_false`.) -/
theorem C76_result_partial (asserts : Bool) (fuel : Nat) (files : String → List AigEvent × Bool)
    (rs : Nat → Nat) (info : MinimizationInfo) (r : MinimizationResult m)
    (hprod : (info.metrics.map (·.gridSize)).prod < 2 ^ 64) (hbound : ∀ d ∈ info.metrics, 0 < d.bound)
    (h : bucketMinimizeHelper asserts fuel files rs info = .ok r) :
    ∃ f : List (BDD m), loadInput asserts files info.input = .ok f ∧ r.originalSize = nodeCount f ∧
      r.smallestFunction ∈ r.allBuckets ∧ (∀ b ∈ r.allBuckets, r.smallestFunction.bddSize ≤ b.bddSize) ∧
      r.allBuckets.length = (info.metrics.map (·.gridSize)).prod ∧
      ∀ b ∈ r.allBuckets, b.bddSize = nodeCount b.function ∧ b.function.length = f.length ∧
        (∀ N, Fits N f → Fits N b.function) ∧ (b.isEmpty = true → b.function = f) ∧
        (b.isEmpty = false → nodeCount b.function < nodeCount f ∧
          b.metricValues.length = info.metrics.length ∧
          ∀ (k : Nat) (d : SimpleMetricDim) (v : ℚ), info.metrics[k]? = some d →
            b.metricValues[k]? = some v → v < d.bound ∧
            (d.metric ≠ .meanSquared → ∀ N, Fits N f → MetricRange m N f.length d.metric →
              IsMetric N f b.function d.metric v)) := by
  unfold bucketMinimizeHelper at h
  obtain ⟨f, hload, h⟩ := bind_ok h
  obtain ⟨ops, hops, h⟩ := bind_ok h
  obtain ⟨bs, hbs, h⟩ := bind_ok h
  obtain ⟨sm, hsm, h⟩ := bind_ok h
  cases h
  have hprod' : ((metricDims (m := m) info.metrics).map (·.gridSize)).prod < 2 ^ 64 := by
    rwa [metricDims_grid]
  have hbound' : ∀ d ∈ metricDims (m := m) info.metrics, 0 < d.bound := by
    intro d hd
    rw [metricDims_eq] at hd
    obtain ⟨e, he, rfl⟩ := List.mem_map.mp hd
    exact hbound e he
  obtain ⟨hlen, herr⟩ := C57_error_bounds fuel f _ ops _ bs hprod' hbound' hbs
  have hsize := C58_sizes fuel f _ ops _ bs hprod' hbs
  have hreach := C60_reachable fuel f _ ops _ bs hprod' hbs
  rw [metricDims_grid] at hlen
  refine ⟨f, hload, rfl, ?_, ?_, hlen, fun b hb => ?_⟩
  · cases bs with
    | nil => cases hsm
    | cons b bs => cases hsm; exact (minBucketLoop_spec b bs).1
  · cases bs with
    | nil => cases hsm
    | cons b bs => cases hsm; exact (minBucketLoop_spec b bs).2
  · obtain ⟨h1, -, h3, h4⟩ := hsize b hb
    obtain ⟨g1, -, g3⟩ := C77_generated f b.function info rs ops hops (hreach b hb)
    refine ⟨h1, g1, g3, h4, fun hne => ⟨by rw [← h1]; exact h3 hne, ?_⟩⟩
    obtain ⟨i, hi⟩ := List.mem_iff_getElem?.mp hb
    have hilt := lt_of_getElem? hi
    rw [hlen, ← metricDims_grid (m := m)] at hilt
    have e2 := rank_unrank hilt
    have e1 := unrank_inBox (bs := (metricDims (m := m) info.metrics).map (·.gridSize))
      (fun b hb hz => by rw [List.prod_eq_zero (hz ▸ hb)] at hilt; omega) i
    obtain ⟨k1, k2⟩ := herr (unrank ((metricDims (m := m) info.metrics).map (·.gridSize)) i) b e1
      (by rw [e2]; exact hi) hne
    refine ⟨by rw [k1, metricDims_eq, List.length_map], fun k d v hd hv => ?_⟩
    have hd' : (metricDims (m := m) info.metrics)[k]? =
        some ⟨d.gridSize, metricFunction d.metric, d.bound⟩ := by
      rw [metricDims_eq, List.getElem?_map, hd]
      rfl
    have hk := lt_of_getElem? hd'
    have hlen' : (unrank ((metricDims (m := m) info.metrics).map (·.gridSize)) i).length =
        (metricDims (m := m) info.metrics).length := by
      rw [unrank_length, List.length_map]
    obtain ⟨j1, -, j3⟩ := k2 k _ _ v hd' (List.getElem?_eq_getElem (by rw [hlen']; exact hk)) hv
    refine ⟨j3, fun hms N hN hr => ?_⟩
    obtain ⟨q, q1, q2⟩ := C75_metric_function_partial N f b.function d.metric g1.symm hN (g3 N hN) hr hms
    dsimp only at j1
    rw [q1] at j1
    cases j1
    exact q2

/-- The helper returns, whatever the iteration budget from the number given on, when the input can be
loaded, the grid sizes and bounds are positive, the inputs are in range for the metrics and
`grid_size * error / bound` is in the range of `std::size_t`. -/
theorem C76_returns (asserts : Bool) (files : String → List AigEvent × Bool) (rs : Nat → Nat)
    (info : MinimizationInfo) (f : List (BDD m)) (N : Nat) (hload : loadInput asserts files info.input = .ok f)
    (hN : Fits N f) (hne : info.metrics ≠ [])
    (hprod : (info.metrics.map (·.gridSize)).prod < 2 ^ 64)
    (hmet : ∀ d ∈ info.metrics, 0 < d.gridSize ∧ 0 < d.bound ∧ d.metric ≠ .meanSquared ∧
      MetricRange m N f.length d.metric ∧ d.gridSize * metricCap f.length d.metric / d.bound < 2 ^ 64)
    (hrand : info.operatorMode = .random →
      info.numOperatorFunctions ≠ none ∧ info.operators ≠ [] ∧ f ≠ []) :
    ∃ r : MinimizationResult m, ∀ fuel, (info.metrics.map (·.gridSize)).prod * nodeCount f + 1 ≤ fuel →
      bucketMinimizeHelper asserts fuel files rs info = .ok r := by
  obtain ⟨ops, hops⟩ : ∃ ops : List (OpFun m), operatorFunctions f info rs = .ok ops := by
    cases hmode : info.operatorMode with
    | singleBdd => exact ⟨_, by unfold operatorFunctions; rw [hmode]⟩
    | multiBdd => exact ⟨_, by unfold operatorFunctions; rw [hmode]⟩
    | random =>
      obtain ⟨h1, h2, h3⟩ := hrand hmode
      obtain ⟨n, hn⟩ := Option.ne_none_iff_exists'.mp h1
      have h4 : 0 < terminalLevel [f] := terminalLevel_single_pos h3
      obtain ⟨l, h5, -⟩ := C61_random f info.operators rs n 0 h2 h4
      exact ⟨l, by unfold operatorFunctions; rw [hmode]; dsimp only; rw [hn]; exact h5⟩
  have hstep : ∀ g, Reach ops f g → g.length = f.length ∧ Fits N g := fun g hg =>
    let ⟨h1, _, h2⟩ := C77_generated f g info rs ops hops hg; ⟨h1, h2 N hN⟩
  have hposd : ∀ d ∈ metricDims (m := m) info.metrics, 0 < d.gridSize := by
    intro d hd
    rw [metricDims_eq] at hd
    obtain ⟨e, he, rfl⟩ := List.mem_map.mp hd
    exact (hmet e he).1
  obtain ⟨bs, hbs⟩ := C56_returns f (metricDims info.metrics) ops info.populateAllBuckets
    (by rw [metricDims_eq]; simpa using hne) hposd
    (by rwa [metricDims_grid])
    (fun g hg op hop => operatorFunctions_total hops op hop g (hstep g hg).1)
    (fun g hg d hd => by
      rw [metricDims_eq] at hd
      obtain ⟨e, he, rfl⟩ := List.mem_map.mp hd
      obtain ⟨h1, h2, h3, h4, h5⟩ := hmet e he
      obtain ⟨q, q1, q2⟩ := C75_metric_function_partial N f g e.metric (hstep g hg).1.symm hN
        (hstep g hg).2 h4 h3
      obtain ⟨q3, q4⟩ := isMetric_range (hstep g hg).1.symm h3 q2
      refine ⟨ne_of_gt h2, q, q1, by positivity, lt_of_le_of_lt ?_ h5⟩
      dsimp only
      gcongr)
  rw [metricDims_grid] at hbs
  have hlen : bs ≠ [] := by
    have h1 := (C57_error_bounds _ f (metricDims info.metrics) ops info.populateAllBuckets bs
      (by rwa [metricDims_grid]) (fun d hd => by
        rw [metricDims_eq] at hd
        obtain ⟨e, he, rfl⟩ := List.mem_map.mp hd
        exact (hmet e he).2.1) (hbs _ (le_refl _))).1
    rintro rfl
    rw [List.length_nil, metricDims_grid] at h1
    have := List.prod_eq_zero_iff.mp h1.symm
    obtain ⟨e, he, h0⟩ := List.mem_map.mp this
    have := (hmet e he).1
    omega
  obtain ⟨b, cs, rfl⟩ := List.exists_cons_of_ne_nil hlen
  refine ⟨⟨nodeCount f, minBucketLoop b cs, b :: cs⟩, fun fuel hfuel => ?_⟩
  unfold bucketMinimizeHelper
  simp only [hload, hops, hbs fuel hfuel, minBucket, bind, Except.bind]

/-- In mode `RANDOM` the number of operators has to be set. -/
theorem C76_unset (asserts : Bool) (fuel : Nat) (files : String → List AigEvent × Bool) (rs : Nat → Nat)
    (info : MinimizationInfo) (f : List (BDD m)) (hload : loadInput asserts files info.input = .ok f)
    (hmode : info.operatorMode = .random) (hn : info.numOperatorFunctions = none) :
    bucketMinimizeHelper (m := m) asserts fuel files rs info = .error .ub := by
  unfold bucketMinimizeHelper operatorFunctions
  rw [hload, hmode, hn]
  rfl

/-- A circuit with the outputs `x0 and x1 and x2` and `x0 and x1`. -/
def exampleFile : String → List AigEvent × Bool := fun _ =>
  ([.header 5 3 0 2 2, .input 0 2, .input 1 4, .input 2 6, .gate 4 2 4, .gate 5 8 6, .output 0 10,
    .output 1 8], true)

/-- A configuration with two metrics. -/
def exampleInfo : MinimizationInfo :=
  { input := "and.aig", metrics := [⟨2, .errorRate, 1 / 2⟩, ⟨2, .worstCase, 4⟩] }

/-- The helper on that file: size of the original and, per bucket, the size, whether it is empty and
the errors. -/
example : (bucketMinimizeHelper (m := .id) true 30 exampleFile (fun _ => 0) exampleInfo).toOption.map
    (fun r => [r.originalSize, r.smallestFunction.bddSize]) = some [6, 1] ∧
    (bucketMinimizeHelper (m := .id) true 30 exampleFile (fun _ => 0) exampleInfo).toOption.map
    (fun r => r.allBuckets.map (fun b => (b.bddSize, b.isEmpty, b.metricValues))) =
    some [(3, false, [1 / 8, 1]), (6, true, [0, 0]), (6, true, [0, 0]), (1, false, [1 / 4, 3])] := by
  decide +kernel

/-- The hypotheses of `C76_returns` are met for an adder and random operators. -/
example (hm : m.Mono) : ∃ r : MinimizationResult m, ∃ f : List (BDD m), loadAdder 8 = .ok f ∧
    ∀ fuel, 4 * nodeCount f + 1 ≤ fuel → bucketMinimizeHelper false fuel exampleFile (fun k => 3 * k)
      { input := "adder8", metrics := [⟨4, .averageCaseRelative, 1⟩], operators := [.round, .subsetLight],
        operatorMode := .random, numOperatorFunctions := some 10 } = .ok r := by
  obtain ⟨f, h1, h2, h3, -⟩ := C76_load_adder (m := m) false exampleFile "adder8" 8 (by simp)
  obtain ⟨r, hr⟩ := C76_returns false exampleFile (fun k => 3 * k)
    { input := "adder8", metrics := [⟨4, .averageCaseRelative, 1⟩], operators := [.round, .subsetLight],
      operatorMode := .random, numOperatorFunctions := some 10 } f 16 h1 h3 (by simp) (by simp)
    (by simp [MetricRange, metricCap, hm, h2]; norm_num)
    (fun _ => ⟨by simp, by simp, by rintro rfl; simp at h2⟩)
  exact ⟨r, f, h1, fun fuel hf => hr fuel (by simpa using hf)⟩

/-! ## C78 times -/

/-- The number printed is the whole number of units in the time. -/
theorem C78_format_time (ms : ℚ) (h0 : 0 ≤ ms) (h1 : ms < 60000 * 2 ^ 31) :
    ∃ (k u : Nat) (unit : String), formatTime ms = .ok (Nat.toDigits 10 k ++ unit.toList) ∧
      (unit, u) ∈ [(" ms", 1), (" s", 1000), (" m", 60000)] ∧
      (k * u : ℚ) ≤ ms ∧ ms < (k + 1) * u ∧
      (u = 1 ↔ ms < 1000) ∧ (u = 60000 ↔ 300000 ≤ ms) := by
  unfold formatTime
  by_cases ha : ms < 1000
  · obtain ⟨k, e1, e2, e3⟩ := toInt_nonneg (q := ms) h0 (by norm_num; linarith)
    refine ⟨k, 1, " ms", ?_, by simp, by simpa using e2, by simpa using e3, by simpa using ha, ?_⟩
    · rw [if_pos ha, e1, ← intToString_nat]
      rfl
    · constructor
      · intro h; norm_num at h
      · intro h; linarith
  · by_cases hb : ms < 300000
    · obtain ⟨k, e1, e2, e3⟩ := toInt_nonneg (q := ms / 1000) (by positivity) (by
        rw [div_lt_iff₀ (by norm_num)]; norm_num; linarith)
      rw [le_div_iff₀ (by norm_num)] at e2
      rw [div_lt_iff₀ (by norm_num)] at e3
      refine ⟨k, 1000, " s", ?_, by simp, by exact_mod_cast e2, by exact_mod_cast e3,
        by simpa using ha, ?_⟩
      · rw [if_neg ha, if_pos hb, e1, ← intToString_nat]
        rfl
      · constructor
        · intro h; norm_num at h
        · intro h; linarith
    · obtain ⟨k, e1, e2, e3⟩ := toInt_nonneg (q := ms / 60000) (by positivity) (by
        rw [div_lt_iff₀ (by norm_num)]; linarith)
      rw [le_div_iff₀ (by norm_num)] at e2
      rw [div_lt_iff₀ (by norm_num)] at e3
      refine ⟨k, 60000, " m", ?_, by simp, by exact_mod_cast e2, by exact_mod_cast e3,
        by simpa using ha, by simpa using hb⟩
      rw [if_neg ha, if_neg hb, e1, ← intToString_nat]
      rfl

/-- Times of `2^31` minutes and more are undefined behaviour. -/
theorem C78_format_time_ub (ms : ℚ) (h : 60000 * 2 ^ 31 ≤ ms) : formatTime ms = .error .ub := by
  unfold formatTime
  rw [if_neg (by norm_num at h ⊢; linarith), if_neg (by norm_num at h ⊢; linarith),
    toInt_big (by rw [le_div_iff₀ (by norm_num)]; linarith)]
  rfl

/-- Two times printed alike differ by less than one of the units printed. -/
theorem C78_format_time_precision (a b : ℚ) (ha : 0 ≤ a) (hb : 0 ≤ b) (s : List Char)
    (h1 : formatTime a = .ok s) (h2 : formatTime b = .ok s) :
    |a - b| < (if a < 1000 then 1 else if a < 300000 then 1000 else 60000) := by
  have hlt : ∀ c : ℚ, formatTime c = .ok s → c < 60000 * 2 ^ 31 := by
    intro c hc
    by_contra h
    rw [C78_format_time_ub c (not_lt.mp h)] at hc
    cases hc
  obtain ⟨k, u, n, e1, e2, e3, e4, e5, e6⟩ := C78_format_time a ha (hlt a h1)
  obtain ⟨k', u', n', e1', e2', e3', e4', e5', e6'⟩ := C78_format_time b hb (hlt b h2)
  rw [h1] at e1
  rw [h2] at e1'
  have e := (Except.ok.inj e1).symm.trans (Except.ok.inj e1')
  have hu : u = u' ∧ k = k' := by
    have hdig : ∀ k : Nat, ∀ c ∈ Nat.toDigits 10 k, c ≠ ' ' := by
      intro k c hc he
      have := Nat.isDigit_of_mem_toDigits (by norm_num) (by norm_num) hc
      subst he
      revert this
      decide
    have key : ∀ (p q r t : List Char), (∀ c ∈ p, c ≠ ' ') → (∀ c ∈ q, c ≠ ' ') →
        p ++ ' ' :: r = q ++ ' ' :: t → p = q ∧ r = t := by
      intro p
      induction p with
      | nil =>
        intro q r t _ hq h
        cases q with
        | nil => simpa using h
        | cons c q =>
          simp only [List.nil_append, List.cons_append, List.cons.injEq] at h
          exact absurd h.1.symm (hq c (by simp))
      | cons c p ih =>
        intro q r t hp hq h
        cases q with
        | nil =>
          simp only [List.nil_append, List.cons_append, List.cons.injEq] at h
          exact absurd h.1 (hp c (by simp))
        | cons d q =>
          simp only [List.cons_append, List.cons.injEq] at h
          obtain ⟨i1, i2⟩ := ih q r t (fun c hc => hp c (by simp [hc])) (fun c hc => hq c (by simp [hc])) h.2
          exact ⟨by rw [h.1, i1], i2⟩
    simp only [List.mem_cons, Prod.mk.injEq, List.not_mem_nil, or_false] at e2 e2'
    have hn : ∀ (n : String) (u : Nat), (n = " ms" ∧ u = 1 ∨ n = " s" ∧ u = 1000 ∨ n = " m" ∧ u = 60000) →
        ∃ t, n.toList = ' ' :: t ∧ (t = ['m', 's'] ∧ u = 1 ∨ t = ['s'] ∧ u = 1000 ∨ t = ['m'] ∧ u = 60000) := by
      rintro n u (⟨rfl, rfl⟩ | ⟨rfl, rfl⟩ | ⟨rfl, rfl⟩)
      · exact ⟨['m', 's'], by decide, by simp⟩
      · exact ⟨['s'], by decide, by simp⟩
      · exact ⟨['m'], by decide, by simp⟩
    obtain ⟨t, ht, hu⟩ := hn n u e2
    obtain ⟨t', ht', hu'⟩ := hn n' u' e2'
    rw [ht, ht'] at e
    obtain ⟨i1, i2⟩ := key _ _ _ _ (hdig k) (hdig k') e
    refine ⟨?_, toDigits_inj i1⟩
    subst i2
    rcases hu with ⟨rfl, rfl⟩ | ⟨rfl, rfl⟩ | ⟨rfl, rfl⟩ <;> exact (by simpa using hu' : _ = _).symm
  obtain ⟨rfl, rfl⟩ := hu
  have hval : (u : ℚ) = (if a < 1000 then 1 else if a < 300000 then 1000 else 60000) := by
    simp only [List.mem_cons, Prod.mk.injEq, List.not_mem_nil, or_false] at e2
    by_cases h3 : a < 1000
    · rw [if_pos h3, e5.mpr h3]; simp
    · rw [if_neg h3]
      by_cases h4 : a < 300000
      · rw [if_pos h4]
        rcases e2 with ⟨-, h⟩ | ⟨-, h⟩ | ⟨-, h⟩
        · exact absurd (e5.mp h) h3
        · rw [h]; norm_num
        · exact absurd (e6.mp h) (not_le.mpr h4)
      · rw [if_neg h4, e6.mpr (not_lt.mp h4)]; norm_num
  rw [← hval, abs_lt]
  constructor <;> linarith

example : formatTime (61999 / 10) = .ok "6 s".toList ∧ formatTime 360000 = .ok "6 m".toList ∧
    formatTime (1 / 2) = .ok "0 ms".toList := by decide +kernel

end Verif

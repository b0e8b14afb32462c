import Verif.Proofs.Experiments
import Verif.Props.Helper
import Verif.SpecExperiments

/-! # C107 the minimisation experiments -/

namespace Verif

variable {m : Mgr}

/-- The error rate and the average error of a function against itself. -/
theorem isMetric_self (N : Nat) (f : List (BDD m)) (met : ErrorMetric) (h : met = .errorRate ∨ met = .averageCase) :
    IsMetric N f f met 0 := by
  rcases h with rfl | rfl
  · change (0 : ℚ) = mean N _
    rw [mean_congr N (fun x => if_pos rfl), mean_const]
  · change (0 : ℚ) = mean N _
    rw [mean_congr N (h := fun _ => 0) (fun x => by simp [absErrAt]), mean_const]

/-- The buckets returned by the helper for error rates and average errors: also the figures of an empty bucket are
those of its function, and a filled bucket keeps the limits of its place in the grid. -/
theorem helper_buckets {asserts : Bool} {fuel : Nat} {files : String → List AigEvent × Bool}
    {rs : Nat → Nat} {info : MinimizationInfo} {r : MinimizationResult m} {f : List (BDD m)} {N : Nat}
    (hprod : (info.metrics.map (·.gridSize)).prod < 2 ^ 64) (hbound : ∀ d ∈ info.metrics, 0 < d.bound)
    (hmet : ∀ d ∈ info.metrics, (d.metric = .errorRate ∨ d.metric = .averageCase) ∧ MetricRange m N f.length d.metric)
    (hload : loadInput asserts files info.input = .ok f) (hN : Fits N f)
    (h : bucketMinimizeHelper asserts fuel files rs info = .ok r) :
    ∀ (i : Nat) (b : Bucket m), r.allBuckets[i]? = some b → b.metricValues.length = info.metrics.length ∧
      b.function.length = f.length ∧ Fits N b.function ∧
      (∀ (k : Nat) (d : SimpleMetricDim) (v : ℚ), info.metrics[k]? = some d → b.metricValues[k]? = some v →
        IsMetric N f b.function d.metric v ∧ v < d.bound ∧ (b.isEmpty = false →
          v < d.bound * ((unrank (info.metrics.map (·.gridSize)) i).getD k 0 + 1) / d.gridSize)) := by
  intro i b hb
  have hmem : b ∈ r.allBuckets := List.mem_of_getElem? hb
  obtain ⟨f', e1, -, -, -, e5, e6⟩ := C76_result_partial asserts fuel files rs info r hprod hbound h
  obtain rfl : f = f' := by rw [hload] at e1; exact Except.ok.inj e1
  obtain ⟨c1, c2, c3, c4, c5⟩ := e6 b hmem
  unfold bucketMinimizeHelper at h
  rw [hload] at h
  obtain ⟨ops, hops, h⟩ := bind_ok (show (do
    let ops ← operatorFunctions f info rs
    let buckets ← bucketGreedyMinimize fuel f (metricDims info.metrics) ops info.populateAllBuckets
    let smallest ← minBucket buckets
    Except.ok (⟨nodeCount f, smallest, buckets⟩ : MinimizationResult m)) = .ok r from h)
  obtain ⟨bs, hbs, h⟩ := bind_ok h
  obtain ⟨sm, hsm, h⟩ := bind_ok h
  cases h
  dsimp only at hb hmem e5
  cases hemp : b.isEmpty with
  | true =>
    have hz := empty_zero hbs b hmem hemp
    rw [metricDims_eq, List.length_map] at hz
    refine ⟨by rw [hz, List.length_replicate], c2, c3 N hN, fun k d v hd hv => ?_⟩
    rw [hz] at hv
    obtain rfl : v = 0 := List.eq_of_mem_replicate (List.mem_of_getElem? hv)
    have hdm := List.mem_of_getElem? hd
    rw [c4 hemp]
    exact ⟨isMetric_self N f d.metric (hmet d hdm).1, hbound d hdm, fun e => by cases e⟩
  | false =>
    obtain ⟨d1, d2, d3⟩ := c5 hemp
    refine ⟨d2, c2, c3 N hN, fun k d v hd hv => ?_⟩
    have hdm := List.mem_of_getElem? hd
    obtain ⟨g1, g2⟩ := d3 k d v hd hv
    refine ⟨g2 (by rcases (hmet d hdm).1 with e | e <;> rw [e] <;> decide) N hN (hmet d hdm).2, g1, fun _ => ?_⟩
    have hgrid := metricDims_grid (m := m) info.metrics
    have hbound' : ∀ d ∈ metricDims (m := m) info.metrics, 0 < d.bound := by
      intro d hd
      rw [metricDims_eq] at hd
      obtain ⟨e, he, rfl⟩ := List.mem_map.mp hd
      exact hbound e he
    obtain ⟨-, herr⟩ := C57_error_bounds fuel f _ ops _ bs (by rwa [hgrid]) hbound' hbs
    rw [hgrid] at herr
    have hilt := lt_of_getElem? hb
    rw [e5] at hilt
    have hbox := unrank_inBox (bs := info.metrics.map (·.gridSize))
      (fun b hb hz => by rw [List.prod_eq_zero (hz ▸ hb)] at hilt; omega) i
    obtain ⟨-, k2⟩ := herr _ b hbox (by rw [rank_unrank hilt]; exact hb) hemp
    have hd' : (metricDims (m := m) info.metrics)[k]? =
        some ⟨d.gridSize, metricFunction d.metric, d.bound⟩ := by
      rw [metricDims_eq, List.getElem?_map, hd]
      rfl
    have hk := lt_of_getElem? hd
    have hk' : k < (unrank (info.metrics.map (·.gridSize)) i).length := by rw [unrank_length, List.length_map]; exact hk
    have := (k2 k _ _ v hd' (List.getElem?_eq_getElem hk') hv).2.1
    rw [List.getD_eq_getElem _ _ hk']
    exact this

/-- A row of the table of buckets at place `i`, for the function `f`: the coordinates, and either nothing or the size,
error rate and average error of a smaller function that keeps the limits of the place. -/
def IsBucketRow (f : List (BDD m)) (i : Nat) (row : List Nat × Option (Nat × ℚ × ℚ)) : Prop :=
  row.1 = [i / 20, i % 20] ∧ ∀ sz er ace, row.2 = some (sz, er, ace) →
    er < double005 * (((i / 20 : Nat) : ℚ) + 1) / 20 ∧ ace < 7 * (((i % 20 : Nat) : ℚ) + 1) / 20 ∧ sz < nodeCount f ∧
    ∃ g : List (BDD m), g.length = f.length ∧ Fits 16 g ∧ sz = nodeCount g ∧
      er = mean 16 (fun x => if bitsAt f x = bitsAt g x then 0 else 1) ∧ ace = mean 16 (absErrAt f g)

theorem bucketRows_ok {f : List (BDD m)} : ∀ (bs : List (Bucket m)) (i : Nat), i + bs.length ≤ 400 →
    (∀ (j : Nat) (b : Bucket m), bs[j]? = some b → ∃ a c, b.metricValues = [a, c] ∧
      (b.isEmpty = false → IsBucketRow f (i + j) ([(i + j) / 20, (i + j) % 20], some (b.bddSize, a, c)))) →
    ∃ rows, bucketRows i bs = .ok rows ∧ rows.length = bs.length ∧
      ∀ (j : Nat) (row : List Nat × Option (Nat × ℚ × ℚ)), rows[j]? = some row →
        IsBucketRow f (i + j) row ∧ (∀ p, row.2 = some p → ∃ b ∈ bs, p.1 = b.bddSize)
  | [], i, _, _ => ⟨[], rfl, rfl, fun j row h => by simp at h⟩
  | b :: bs, i, hi, hall => by
      rw [List.length_cons] at hi
      obtain ⟨a, c, hv, hrow⟩ := hall 0 b rfl
      obtain ⟨rows, h1, h2, h3⟩ := bucketRows_ok (f := f) bs (i + 1) (by omega) (fun j b' hb' => by
        have := hall (j + 1) b' (by simpa using hb')
        rwa [show i + (j + 1) = i + 1 + j by omega] at this)
      have hidx : createIndex i [20, 20] = .ok [i / 20, i % 20] := by
        rw [createIndex_eq (by simp)]
        simp only [unrank, List.prod_cons, List.prod_nil]
        congr 2
        · omega
        · simp
      have hr : ∃ row, bucketRow i b = .ok row ∧ IsBucketRow f i row ∧ (∀ p, row.2 = some p → p.1 = b.bddSize) := by
        cases he : b.isEmpty with
        | true =>
          exact ⟨([i / 20, i % 20], none), by simp only [bucketRow, hidx, he, bind, Except.bind, if_true],
            ⟨rfl, fun sz er ace h => by cases h⟩, fun p h => by cases h⟩
        | false =>
          refine ⟨([i / 20, i % 20], some (b.bddSize, a, c)), ?_, by simpa using hrow he, fun p h => ?_⟩
          · have v0 : vget [a, c] 0 = .ok a := rfl
            have v1 : vget [a, c] 1 = .ok c := rfl
            simp only [bucketRow, hidx, he, hv, bind, Except.bind, v0, v1, Bool.false_eq_true, if_false]
          · cases h; rfl
      obtain ⟨row, r1, r2, r3⟩ := hr
      refine ⟨row :: rows, by simp only [bucketRows, r1, h1, bind, Except.bind], by simp [h2], fun j row' hj => ?_⟩
      cases j with
      | zero =>
        simp only [List.getElem?_cons_zero, Option.some.injEq] at hj
        subst hj
        exact ⟨r2, fun p hp => ⟨b, by simp, r3 p hp⟩⟩
      | succ j =>
        obtain ⟨g1, g2⟩ := h3 j row' (by simpa using hj)
        rw [show i + 1 + j = i + (j + 1) by omega] at g1
        exact ⟨g1, fun p hp => let ⟨b', hb', e⟩ := g2 p hp; ⟨b', by simp [hb'], e⟩⟩

/-- The adder experiment returns: its figures are the size of the exact eight bit adder and the size, error rate and
average error of a function found, within the limits 0.05 and 7; the table has a row for each of the 400 places, and
no function in it is smaller than the one found. -/
theorem C107_minimize_adders (asserts : Bool) (files : String → List AigEvent × Bool) (rs : Nat → Nat) :
    ∃ f : List (BDD m), ∃ bound, (∀ x, uAt f x = opA 8 x + opB 8 x) ∧ f.length = 9 ∧ ∀ fuel, bound ≤ fuel →
      ∃ g : List (BDD m), ∃ er ace rows,
        minimizeAddersMain asserts fuel files rs m = .ok ((nodeCount f, nodeCount g, er, ace), rows) ∧
        g.length = 9 ∧ Fits 16 g ∧ nodeCount g ≤ nodeCount f ∧
        er = mean 16 (fun x => if bitsAt f x = bitsAt g x then 0 else 1) ∧ ace = mean 16 (absErrAt f g) ∧
        er < double005 ∧ ace < 7 ∧ rows.length = 400 ∧
        ∀ (i : Nat) (row : List Nat × Option (Nat × ℚ × ℚ)), rows[i]? = some row → IsBucketRow f i row ∧
          ∀ p, row.2 = some p → nodeCount g ≤ p.1 := by
  obtain ⟨f, h1, h2, h3, h4⟩ := C76_load_adder (m := m) asserts files "adder8" 8 (by simp)
  have hd : (0 : ℚ) < double005 := by norm_num [double005]
  have hprod : (adderMinimizationInfo.metrics.map (·.gridSize)).prod = 400 := by decide
  have hin : adderMinimizationInfo.input = "adder8" := rfl
  have hmets : ∀ d ∈ adderMinimizationInfo.metrics, 0 < d.gridSize ∧ 0 < d.bound ∧ d.metric ≠ .meanSquared ∧
      MetricRange m 16 f.length d.metric ∧ d.gridSize * metricCap f.length d.metric / d.bound < 2 ^ 64 := by
    intro d hd'
    simp only [adderMinimizationInfo, List.mem_cons, List.not_mem_nil, or_false] at hd'
    rcases hd' with rfl | rfl
    · exact ⟨by norm_num, hd, by decide, by simp [MetricRange, h2], by norm_num [metricCap, double005]⟩
    · exact ⟨by norm_num, by norm_num, by decide, by simp [MetricRange, h2], by norm_num [metricCap, h2]⟩
  obtain ⟨r, hr⟩ := C76_returns asserts files rs adderMinimizationInfo f 16 h1 h3 (by simp [adderMinimizationInfo])
    (by rw [hprod]; norm_num) hmets (fun h => by cases h)
  rw [hprod] at hr
  refine ⟨f, 400 * nodeCount f + 1, h4, h2, fun fuel hfuel => ?_⟩
  have hrun := hr fuel hfuel
  obtain ⟨f', e1, e2, e3, e4, e5, e6⟩ := C76_result_partial asserts fuel files rs adderMinimizationInfo r
    (by rw [hprod]; norm_num) (fun d hd => (hmets d hd).2.1) hrun
  rw [hin, h1] at e1
  obtain rfl := Except.ok.inj e1
  have hb := helper_buckets (by rw [hprod]; norm_num) (fun d hd => (hmets d hd).2.1) (fun d hd =>
    ⟨by
      simp only [adderMinimizationInfo, List.mem_cons, List.not_mem_nil, or_false] at hd
      rcases hd with rfl | rfl
      · exact Or.inl rfl
      · exact Or.inr rfl, (hmets d hd).2.2.2.1⟩) h1 h3 hrun
  rw [hprod] at e5
  have hun : ∀ i, unrank (adderMinimizationInfo.metrics.map (·.gridSize)) i = [i / 20 % 20, i % 20] := fun i => by
    simp [adderMinimizationInfo, unrank]
  have hbucket : ∀ (i : Nat) (b : Bucket m), r.allBuckets[i]? = some b → ∃ er ace, b.metricValues = [er, ace] ∧
      er = mean 16 (fun x => if bitsAt f x = bitsAt b.function x then 0 else 1) ∧
      ace = mean 16 (absErrAt f b.function) ∧ er < double005 ∧ ace < 7 ∧ (b.isEmpty = false →
        er < double005 * (((i / 20 : Nat) : ℚ) + 1) / 20 ∧ ace < 7 * (((i % 20 : Nat) : ℚ) + 1) / 20) := fun i b hi => by
    obtain ⟨g1, -, -, g2⟩ := hb i b hi
    have hilt := lt_of_getElem? hi
    obtain ⟨er, ace, hv⟩ : ∃ er ace, b.metricValues = [er, ace] := List.length_eq_two.mp g1
    obtain ⟨a1, a2, a3⟩ := g2 0 ⟨20, .errorRate, double005⟩ er rfl (by rw [hv]; rfl)
    obtain ⟨c1, c2, c3⟩ := g2 1 ⟨20, .averageCase, 7⟩ ace rfl (by rw [hv]; rfl)
    refine ⟨er, ace, hv, a1, c1, a2, c2, fun he => ⟨?_, ?_⟩⟩
    · have := a3 he
      rw [hun] at this
      rw [show i / 20 % 20 = i / 20 by omega] at this
      simpa using this
    · have := c3 he
      rw [hun] at this
      simpa using this
  obtain ⟨k, hk⟩ := List.mem_iff_getElem?.mp e3
  obtain ⟨er, ace, hv, b1, b2, b3, b4, -⟩ := hbucket k _ hk
  obtain ⟨rows, q1, q2, q3⟩ := bucketRows_ok (f := f) r.allBuckets 0 (by omega) (fun j b hj => by
    obtain ⟨er, ace, hv, b1, b2, -, -, b3⟩ := hbucket j b hj
    obtain ⟨s1, s2, s3, -, s4⟩ := e6 b (List.mem_of_getElem? hj)
    refine ⟨er, ace, hv, fun he => ⟨by simp, fun sz er' ace' h => ?_⟩⟩
    simp only [Option.some.injEq, Prod.mk.injEq] at h
    obtain ⟨rfl, rfl, rfl⟩ := h
    rw [Nat.zero_add]
    exact ⟨(b3 he).1, (b3 he).2, by rw [s1]; exact (s4 he).1, b.function, s2, s3 16 h3, s1, b1, b2⟩)
  obtain ⟨s1, s2, s3, s4, s5⟩ := e6 _ e3
  refine ⟨r.smallestFunction.function, er, ace, rows, ?_, by rw [s2, h2], s3 16 h3, ?_, b1, b2, b3, b4, by rw [q2, e5],
    fun i row hi => ?_⟩
  · have v0 : vget [er, ace] 0 = .ok er := rfl
    have v1 : vget [er, ace] 1 = .ok ace := rfl
    simp only [minimizeAddersMain, hrun, hv, v0, v1, q1, bind, Except.bind, e2, s1]
  · cases he : r.smallestFunction.isEmpty with
    | true => rw [s4 he]
    | false => exact (s5 he).1.le
  · obtain ⟨t1, t2⟩ := q3 i row hi
    rw [Nat.zero_add] at t1
    refine ⟨t1, fun p hp => ?_⟩
    obtain ⟨b, hb, e⟩ := t2 p hp
    rw [e, ← s1]
    exact e4 b hb

theorem filepath_not_adder {i : Nat} {p : String} (h : iscasFilepath i = .ok p ∨ epflFilepath i = .ok p) :
    p ∉ ["adder8", "adder16", "adder32"] := by
  have key : ∀ (l : List String) (pre : String) (c : Char) (rest : List Char), pre.toList = c :: rest → c ≠ 'a' →
      (do let name ← fileById l i; Except.ok (pre ++ name)) = (.ok p : Except Fault String) →
        p ∉ ["adder8", "adder16", "adder32"] := by
    intro l pre c rest hpre hc h hm
    obtain ⟨s, -, h⟩ := bind_ok h
    have e := congrArg String.toList (Except.ok.inj h)
    rw [String.toList_append, hpre, List.cons_append] at e
    simp only [List.mem_cons, List.not_mem_nil, or_false] at hm
    have a8 : "adder8".toList = 'a' :: "dder8".toList := by decide
    have a16 : "adder16".toList = 'a' :: "dder16".toList := by decide
    have a32 : "adder32".toList = 'a' :: "dder32".toList := by decide
    rcases hm with rfl | rfl | rfl
    · rw [a8] at e; exact hc (List.cons.inj e).1
    · rw [a16] at e; exact hc (List.cons.inj e).1
    · rw [a32] at e; exact hc (List.cons.inj e).1
  rcases h with h | h
  · exact key _ "./iscas85/" '.' "/iscas85/".toList (by decide) (by decide) h
  · exact key _ "./epfl/" '.' "/epfl/".toList (by decide) (by decide) h

/-- A row of the circuit experiments: for a well formed circuit file with at least one output and at most 1024 inputs
it holds the name of the file, the size of the circuit, and size and error rate, below 0.05, of a function found. -/
theorem C107_minimize_circuit (asserts : Bool) (files : String → List AigEvent × Bool) (rs : Nat → Nat)
    (filepath filename : Nat → Except Fault String)
    (hp : (filepath, filename) = (iscasFilepath, iscasFilename) ∨ (filepath, filename) = (epflFilepath, epflFilename))
    (file : Nat) (path name : String) (hpath : filepath file = .ok path) (hname : filename file = .ok name)
    (ni no : Nat) (es : List AigEvent) (hc : CircuitFile files path ni no es) (hno : 1 ≤ no) (hni : ni ≤ 1024) :
    ∃ f : List (BDD m), ∃ bound, IsCircuit es no f ∧ ∀ fuel, bound ≤ fuel → ∃ g : List (BDD m), ∃ er,
      minimizeCircuitRow asserts fuel files rs filepath filename file m = .ok (name, nodeCount f, nodeCount g, er) ∧
      g.length = no ∧ Fits ni g ∧ nodeCount g ≤ nodeCount f ∧
      er = mean ni (fun x => if bitsAt f x = bitsAt g x then 0 else 1) ∧ er < double005 := by
  have hnot : path ∉ ["adder8", "adder16", "adder32"] := by
    apply filepath_not_adder (i := file)
    rcases hp with hp | hp
    · exact Or.inl (by rw [← (Prod.mk.inj hp).1]; exact hpath)
    · exact Or.inr (by rw [← (Prod.mk.inj hp).1]; exact hpath)
  obtain ⟨vs, l, a, c1, c2, c3, c4⟩ := hc
  obtain ⟨f, h1, h2, h3⟩ := C76_load_circuit (m := m) asserts files path hnot vs ni l no a es c4 c1 c2 c3
  have hfit : Fits ni f := circuit_fits c2 h3
  have hd : (0 : ℚ) < double005 := by norm_num [double005]
  have hmets : ∀ d ∈ (circuitMinimizationInfo path).metrics, 0 < d.gridSize ∧ 0 < d.bound ∧ d.metric ≠ .meanSquared ∧
      MetricRange m ni f.length d.metric ∧ d.gridSize * metricCap f.length d.metric / d.bound < 2 ^ 64 := by
    intro d hd'
    simp only [circuitMinimizationInfo, List.mem_cons, List.not_mem_nil, or_false] at hd'
    subst hd'
    exact ⟨by norm_num, hd, by decide, ⟨by omega, hni⟩, by norm_num [metricCap, double005]⟩
  have hprod : ((circuitMinimizationInfo path).metrics.map (·.gridSize)).prod = 10 := by
    simp [circuitMinimizationInfo]
  obtain ⟨r, hr⟩ := C76_returns asserts files rs (circuitMinimizationInfo path) f ni h1 hfit
    (by simp [circuitMinimizationInfo]) (by rw [hprod]; norm_num) hmets (fun h => by cases h)
  rw [hprod] at hr
  refine ⟨f, 10 * nodeCount f + 1, ⟨h2, h3⟩, fun fuel hfuel => ?_⟩
  have hrun := hr fuel hfuel
  obtain ⟨f', e1, e2, e3, e4, e5, e6⟩ := C76_result_partial asserts fuel files rs (circuitMinimizationInfo path) r
    (by rw [hprod]; norm_num) (fun d hd => (hmets d hd).2.1) hrun
  have hin : (circuitMinimizationInfo path).input = path := rfl
  rw [hin, h1] at e1
  obtain rfl := Except.ok.inj e1
  obtain ⟨k, hk⟩ := List.mem_iff_getElem?.mp e3
  obtain ⟨g1, g2, g3, g4⟩ := helper_buckets (by rw [hprod]; norm_num) (fun d hd => (hmets d hd).2.1) (fun d hd =>
    ⟨by
      simp only [circuitMinimizationInfo, List.mem_cons, List.not_mem_nil, or_false] at hd
      subst hd
      exact Or.inl rfl, (hmets d hd).2.2.2.1⟩) h1 hfit hrun k _ hk
  obtain ⟨er, hv⟩ : ∃ er, r.smallestFunction.metricValues = [er] := List.length_eq_one_iff.mp g1
  obtain ⟨a1, a2, -⟩ := g4 0 ⟨10, .errorRate, double005⟩ er rfl (by rw [hv]; rfl)
  obtain ⟨s1, s2, s3, s4, s5⟩ := e6 _ e3
  refine ⟨r.smallestFunction.function, er, ?_, by rw [s2, h2], g3, ?_, a1, a2⟩
  · have v0 : vget [er] 0 = .ok er := rfl
    simp only [minimizeCircuitRow, hpath, hrun, hname, hv, v0, bind, Except.bind, e2, s1]
  · cases he : r.smallestFunction.isEmpty with
    | true => rw [s4 he]
    | false => exact (s5 he).1.le

/-- The limit is written 0.05 and is the next larger `double`; error rates over at most 56 inputs lie below the one iff
they lie below the other. -/
theorem C107_limit (N : Nat) (hN : N ≤ 56) (f g : List (BDD m)) :
    mean N (fun x => if bitsAt f x = bitsAt g x then (0 : ℚ) else 1) < double005 ↔
      mean N (fun x => if bitsAt f x = bitsAt g x then (0 : ℚ) else 1) < 1 / 20 := by
  have e : mean N (fun x => if bitsAt f x = bitsAt g x then (0 : ℚ) else 1) =
      mean N (fun x => ind (!decide (bitsAt f x = bitsAt g x))) := mean_congr N fun x => by
    by_cases h : bitsAt f x = bitsAt g x <;> simp [h, ind]
  rw [e, mean_ind_count]
  obtain ⟨k, hk⟩ : ∃ k, k = count N (fun x => !decide (bitsAt f x = bitsAt g x)) := ⟨_, rfl⟩
  rw [← hk]
  obtain ⟨d, hd⟩ : ∃ d, 56 = N + d := ⟨56 - N, by omega⟩
  have e2 : (2 : ℚ) ^ 56 = 2 ^ N * 2 ^ d := by rw [hd, pow_add]
  have hp : (0 : ℚ) < 2 ^ N := by positivity
  have hp' : (0 : ℚ) < 2 ^ d := by positivity
  unfold double005
  have h1 : (k : ℚ) / 2 ^ N < 3602879701896397 / 2 ^ 56 ↔ k * 2 ^ d < 3602879701896397 := by
    rw [e2, div_lt_div_iff₀ hp (by positivity), show (k : ℚ) * (2 ^ N * 2 ^ d) = k * 2 ^ d * 2 ^ N by ring,
      mul_lt_mul_iff_left₀ hp]
    exact_mod_cast Iff.rfl
  have h2 : (k : ℚ) / 2 ^ N < 1 / 20 ↔ 20 * (k * 2 ^ d) < 2 ^ 56 := by
    have : (k : ℚ) / 2 ^ N < 1 / 20 ↔ 20 * (k * 2 ^ d : ℚ) < 2 ^ 56 := by
      rw [e2, div_lt_div_iff₀ hp (by norm_num), one_mul, ← mul_lt_mul_iff_left₀ hp']
      constructor <;> intro h <;> linarith
    rw [this]
    exact_mod_cast Iff.rfl
  rw [h1, h2]
  omega

/-- Every file of the two experiments has a path and a name, and no file comes twice. -/
theorem C107_files : minimizeIscasFiles.Nodup ∧ minimizeEpflFiles.Nodup ∧
    (∀ i ∈ minimizeIscasFiles, ∃ p s, iscasFilepath i = .ok p ∧ iscasFilename i = .ok s) ∧
    (∀ i ∈ minimizeEpflFiles, ∃ p s, epflFilepath i = .ok p ∧ epflFilename i = .ok s) := by
  have h1 : ∀ i ∈ minimizeIscasFiles, i < 11 := by decide
  have h2 : ∀ i ∈ minimizeEpflFiles, i < 10 := by decide
  have key : ∀ (l : List String) (i n : Nat), i < n → n = l.length → ∃ s, fileById l i = .ok s := fun l i n hi hn => by
    unfold fileById
    rw [if_neg (by omega)]
    exact ⟨_, vget_eq l i "" (hn ▸ hi)⟩
  refine ⟨by decide, by decide, fun i hi => ?_, fun i hi => ?_⟩
  · obtain ⟨s, hs⟩ : ∃ s, iscasFilename i = .ok s := key _ i _ (h1 i hi) rfl
    exact ⟨_, s, by rw [iscasFilepath, hs]; rfl, hs⟩
  · obtain ⟨s, hs⟩ : ∃ s, epflFilename i = .ok s := key _ i _ (h2 i hi) rfl
    exact ⟨_, s, by rw [epflFilepath, hs]; rfl, hs⟩

/-! ### Examples -/

/-- A circuit with one output, the conjunction of six inputs. -/
def sixFile : String → List AigEvent × Bool := fun _ =>
  ([.header 11 6 0 1 5, .input 0 2, .input 1 4, .input 2 6, .input 3 8, .input 4 10, .input 5 12, .output 0 22,
    .gate 7 2 4, .gate 8 14 6, .gate 9 16 8, .gate 10 18 10, .gate 11 20 12], true)

theorem sixFile_circuit (path : String) : CircuitFile sixFile path 6 1 (sixFile path).1.tail :=
  ⟨11, 0, 5, by norm_num, by simp [sixFile, AigBody], by simp [sixFile, aigOutput, aigDeclared], rfl⟩

-- the whole function may be dropped: it is wrong on one input of 64
example : iscasFilepath 1 = .ok "./iscas85/c432.aig" ∧ iscasFilename 1 = .ok "c432.aig" ∧
    (minimizeCircuitRow true 71 sixFile (fun _ => 0) iscasFilepath iscasFilename 1 .id).toOption =
      some ("c432.aig", 7, 1, 1 / 64) := by decide +kernel

end Verif

import Verif.Proofs.Experiments
import Verif.Props.Nsga
import Verif.Props.Minimize
import Verif.Proofs.AdderWorst
import Verif.Proofs.OperatorSem
import Verif.Proofs.Support
import Mathlib.Data.Set.Finite.Lattice
import Mathlib.Data.Set.Finite.Lemmas
import Mathlib.Data.Int.Interval

/-! # C108 the experiments with the genetic algorithm -/

namespace Verif

variable {m : Mgr}

/-- There is such a conversion. -/
theorem exists_floatConversion : ∃ fl, FloatConversion fl := by
  have hfin : {q : ℚ | IsFloat q}.Finite := by
    refine Set.Finite.subset (Set.Finite.image (fun p : ℤ × ℤ => (p.1 : ℚ) * 2 ^ p.2)
      (Set.Finite.prod (Set.finite_Icc (-2 ^ 24 : ℤ) (2 ^ 24)) (Set.finite_Icc (-149 : ℤ) 104))) ?_
    rintro q ⟨k, e, h1, h2, h3, rfl⟩
    rw [abs_lt] at h1
    exact ⟨(k, e), ⟨⟨h1.1.le, h1.2.le⟩, ⟨h2, h3⟩⟩, rfl⟩
  have hne : {q : ℚ | IsFloat q}.Nonempty := ⟨0, 0, 0, by norm_num, by norm_num, by norm_num, by norm_num⟩
  choose fl hfl using fun x : ℚ => Set.exists_min_image _ (fun y => |y - x|) hfin hne
  exact ⟨fl, fun x _ => hfl x⟩

/-- Whole numbers below `2^24` are kept. -/
theorem float_nat {fl : ℚ → ℚ} (h : FloatConversion fl) (k : Nat) (hk : k < 2 ^ 24) : fl k = k := by
  have hk' : (k : ℚ) < 2 ^ 24 := by exact_mod_cast hk
  obtain ⟨-, h2⟩ := h k (by rw [abs_of_nonneg (by positivity)]; exact hk'.le.trans (by norm_num))
  have := h2 k ⟨k, 0, by rw [abs_of_nonneg (by positivity)]; exact_mod_cast hk, by norm_num, by norm_num, by simp⟩
  rw [sub_self, abs_zero] at this
  have := abs_eq_zero.mp (le_antisymm this (abs_nonneg _))
  linarith

/-- The conversion does not round the limit 0.05 down. -/
theorem C108_limit {fl : ℚ → ℚ} (h : FloatConversion fl) : double005 < fl double005 ∧
    fl double005 = 13421773 / 2 ^ 28 := by
  obtain ⟨⟨k, e, hk, he, he', hq⟩, h2⟩ := h double005 (by rw [abs_of_nonneg] <;> norm_num [double005])
  have h3 := h2 (13421773 / 2 ^ 28) ⟨13421773, -28, by norm_num, by norm_num, by norm_num, by
    norm_num [zpow_neg]⟩
  have hd : |(13421773 / 2 ^ 28 : ℚ) - double005| < 1 / 4 / 2 ^ 28 := by
    rw [abs_of_nonneg] <;> norm_num [double005]
  have hlt := lt_of_le_of_lt h3 hd
  rw [abs_lt] at hlt
  have hbig : (1 / 32 : ℚ) < fl double005 := by
    have : (1 / 32 : ℚ) < double005 - 1 / 4 / 2 ^ 28 := by norm_num [double005]
    linarith
  have he28 : -28 ≤ e := by
    by_contra hlt'
    have hp : (2 : ℚ) ^ e ≤ 2 ^ (-29 : ℤ) := zpow_le_zpow_right₀ (by norm_num) (by omega)
    have hk1 : (k : ℚ) ≤ 2 ^ 24 := by
      have := (abs_lt.mp hk).2.le
      exact_mod_cast this
    have : fl double005 ≤ 2 ^ 24 * 2 ^ (-29 : ℤ) := by
      rw [hq]
      exact mul_le_mul hk1 hp (zpow_nonneg (by norm_num) _) (by norm_num)
    norm_num [zpow_neg] at this
    linarith
  obtain ⟨d, rfl⟩ : ∃ d : ℕ, e = -28 + d := ⟨(e + 28).toNat, by omega⟩
  have hint : fl double005 = ((k * 2 ^ d : ℤ) : ℚ) / 2 ^ 28 := by
    rw [hq, zpow_add₀ (by norm_num), zpow_neg]
    push_cast
    norm_num
    ring
  have a1 : (13421772 : ℚ) < ((k * 2 ^ d : ℤ) : ℚ) := by
    have : (13421772 / 2 ^ 28 : ℚ) < double005 - 1 / 4 / 2 ^ 28 := by norm_num [double005]
    have h' : (13421772 / 2 ^ 28 : ℚ) < fl double005 := by linarith
    rw [hint, div_lt_div_iff_of_pos_right (by positivity)] at h'
    exact h'
  have a2 : ((k * 2 ^ d : ℤ) : ℚ) < 13421774 := by
    have : double005 + 1 / 4 / 2 ^ 28 < (13421774 / 2 ^ 28 : ℚ) := by norm_num [double005]
    have h' : fl double005 < (13421774 / 2 ^ 28 : ℚ) := by linarith
    rw [hint, div_lt_div_iff_of_pos_right (by positivity)] at h'
    exact h'
  have a3 : k * 2 ^ d = 13421773 := by
    have b1 : (13421772 : ℤ) < k * 2 ^ d := by exact_mod_cast a1
    have b2 : k * 2 ^ d < (13421774 : ℤ) := by exact_mod_cast a2
    omega
  rw [a3] at hint
  refine ⟨?_, by rw [hint]; norm_num⟩
  rw [hint]
  norm_num [double005]

/-- A function made of an individual of the first `K` rounds that is smaller than `f`, has an error rate below 0.05 and
keeps the other limit. -/
def Candidate (f : List (BDD m)) (N : Nat) (pops : Nat → List (List ℚ)) (K : Nat) (limit : List (BDD m) → Prop)
    (g : List (BDD m)) : Prop :=
  (∃ k, k < K ∧ ∃ ind ∈ pops k, functionFromIndividuum f ind = .ok g) ∧ nodeCount g < nodeCount f ∧
    mean N (fun x => if bitsAt f x = bitsAt g x then (0 : ℚ) else 1) < double005 ∧ limit g

/-- A smallest candidate is reported, or `2^64 - 1` nodes. -/
def ReportsBest (f : List (BDD m)) (N : Nat) (pops : Nat → List (List ℚ)) (limit : List (BDD m) → Prop)
    (nodes : Nat) (er : ℚ) (best : List (BDD m) → Prop) : Prop :=
  ∃ K, 1 ≤ K ∧ K ≤ nodeCount f + 1 ∧ (∀ g, Candidate f N pops K limit g → nodes ≤ nodeCount g) ∧
    ((nodes = 2 ^ 64 - 1 ∧ er = 0) ∨ ∃ g, Candidate f N pops K limit g ∧ nodes = nodeCount g ∧
      er = mean N (fun x => if bitsAt f x = bitsAt g x then 0 else 1) ∧ best g)

theorem supportPositions_ne_nil {f : List (BDD m)} (h : ∃ b ∈ f, ∃ x y, b.eval x ≠ b.eval y) :
    supportPositions f ≠ [] := by
  intro h0
  obtain ⟨b, hb, x, y, hxy⟩ := h
  refine hxy (edge_eval_congr (vars_agree fun v hv => ?_))
  obtain ⟨i, hi⟩ := List.mem_iff_getElem?.mp hb
  have := mem_supportPositions.mpr ⟨b, hi, hv⟩
  rw [h0] at this
  simp at this

theorem geneticExperiment_spec {fl : ℚ → ℚ} (hfl : FloatConversion fl) (rs : Nat → Nat) (f : List (BDD m)) (maxAce : Nat)
    (hace : maxAce < 2 ^ 24) (both : Bool) (pops : Nat → List (List ℚ)) (N : Nat) (hf : Fits N f) (hN : N ≤ 1024)
    (hb : both = true → f.length + 1 + N ≤ 256) (hpos : supportPositions f ≠ [])
    (hpops : ∀ k, ∀ ind ∈ pops k, ind.length = (supportPositions f).length) (fuel : Nat) (hfuel : nodeCount f < fuel) :
    ∃ res, geneticExperiment fl rs f maxAce both pops fuel = .ok res ∧
      ReportsBest f N pops (fun g => both = true → mean N (absErrAt f g) < maxAce) res.nodeCount res.errorRate
        (fun g => both = true → res.ace = mean N (absErrAt f g)) ∧
      (res.nodeCount = 2 ^ 64 - 1 → nodeCount f < 2 ^ 64 → res.ace = 0) := by
  obtain ⟨pop, hp, -⟩ := C82_population f rs 3 100 0 hpos
  obtain ⟨res, K, h1, h2, h3, h4, h5⟩ := C84_result_partial fl f double005 maxAce both pops N fuel hf hN hb
    (fun k ind hi => (hpops k ind hi).ge) (by norm_num [double005]) (C108_limit hfl).1.le (float_nat hfl maxAce hace).ge
    (by positivity) hfuel
  refine ⟨res, ?_, ⟨K, h2, h3, ?_, ?_⟩, ?_⟩
  · simp only [geneticExperiment, hp, bind, Except.bind]
    exact h1
  · rintro g ⟨⟨k, hk, ind, hi, hg⟩, c2, c3, c4⟩
    exact h5 k hk ind hi g hg c2 c3 c4
  · rcases h4 with h4 | ⟨k, hk, ind, hi, g, g1, g2, g3, g4, g5, g6, -⟩
    · exact Or.inl ⟨h4.1, h4.2.1⟩
    · exact Or.inr ⟨g, ⟨⟨k, hk, ind, hi, g1⟩, g2, g4 ▸ g5, fun hb => (g6 hb).1 ▸ (g6 hb).2⟩, g3, g4, fun hb => (g6 hb).1⟩
  · intro r1 hlt
    rcases h4 with h4 | ⟨k, hk, ind, hi, g, g1, g2, g3, -⟩
    · exact h4.2.2
    · omega

/-- Each row of the adder experiment: the size of the exact sum and figures of a smallest function among the individuals
seen that are smaller than it and keep the limits. -/
theorem C108_adders {fl : ℚ → ℚ} (hfl : FloatConversion fl) (rs : Nat → Nat) :
    ∀ e ∈ nsgaAdderArgs, ∃ f : List (BDD m), (∀ x, uAt f x = opA e.1 x + opB e.1 x) ∧ f.length = e.1 + 1 ∧
      ∀ pops : Nat → List (List ℚ), (∀ k, ∀ ind ∈ pops k, ind.length = (supportPositions f).length) →
      ∀ fuel, nodeCount f < fuel → ∃ sz er ace,
        nsgaAdderRow fl rs e.1 e.2 pops fuel m = .ok (e.1, nodeCount f, sz, er, ace) ∧
        ReportsBest f (2 * e.1) pops (fun g => mean (2 * e.1) (absErrAt f g) < e.2) sz er
          (fun g => ace = mean (2 * e.1) (absErrAt f g)) ∧
        (sz = 2 ^ 64 - 1 → nodeCount f < 2 ^ 64 → ace = 0) := by
  intro e he
  obtain ⟨n, a, rfl, hn', ha, hne⟩ : ∃ n a : Nat, e = (n, (a : ℚ)) ∧ n ≤ 32 ∧ a < 2 ^ 24 ∧
      opA n (fun _ => false) + opB n (fun _ => false) ≠ opA n (fun _ => true) + opB n (fun _ => true) := by
    simp only [nsgaAdderArgs, List.mem_cons, List.not_mem_nil, or_false] at he
    rcases he with rfl | rfl | rfl
    · exact ⟨8, 7, by norm_num, by norm_num, by norm_num, by decide⟩
    · exact ⟨16, 35, by norm_num, by norm_num, by norm_num, by decide⟩
    · exact ⟨32, 9000, by norm_num, by norm_num, by norm_num, by decide⟩
  obtain ⟨f, h1, h2⟩ := regularAdder_spec (m := m) n
  have hv := regular_value h2
  refine ⟨f, hv, h2.len, fun pops hpops fuel hfuel => ?_⟩
  have hpos : supportPositions f ≠ [] := by
    apply supportPositions_ne_nil
    by_contra hno
    push Not at hno
    have e1 := hv (fun _ => false)
    have e2 := hv (fun _ => true)
    have : uAt f (fun _ => false) = uAt f (fun _ => true) := by
      unfold uAt bitsAt
      exact congrArg uval (List.map_congr_left fun b hb => hno b hb _ _)
    rw [e1, e2] at this
    exact hne this
  obtain ⟨res, r1, r2, r3⟩ := geneticExperiment_spec hfl rs f a ha true pops (2 * n) h2.fits (by omega)
    (fun _ => by rw [h2.len]; omega) hpos hpops fuel hfuel
  refine ⟨res.nodeCount, res.errorRate, res.ace, ?_, ?_, r3⟩
  · simp only [nsgaAdderRow, h1, r1, bind, Except.bind]
  · simpa using r2

theorem circuit_experiment {fl : ℚ → ℚ} (hfl : FloatConversion fl) (rs : Nat → Nat) {f : List (BDD m)} {ni : Nat}
    (hfit : Fits ni f) (hni : ni ≤ 1024) (hc : ∃ b ∈ f, ∃ x y, b.eval x ≠ b.eval y) (pops : Nat → List (List ℚ))
    (hpops : ∀ k, ∀ ind ∈ pops k, ind.length = (supportPositions f).length) (fuel : Nat) (hfuel : nodeCount f < fuel) :
    ∃ res, geneticExperiment fl rs f 0 false pops fuel = .ok res ∧
      ReportsBest f ni pops (fun _ => True) res.nodeCount res.errorRate (fun _ => True) := by
  obtain ⟨res, r1, r2, -⟩ := geneticExperiment_spec hfl rs f 0 (by norm_num) false pops ni hfit hni
    (by simp) (supportPositions_ne_nil hc) hpops fuel hfuel
  exact ⟨res, by simpa using r1, by simpa using r2⟩

/-- Each row of the circuit experiments. -/
theorem C108_circuits {fl : ℚ → ℚ} (hfl : FloatConversion fl) (asserts : Bool) (files : String → List AigEvent × Bool)
    (rs : Nat → Nat) (ni no : Nat) (es : List AigEvent) (hni : ni ≤ 1024) :
    (∀ file, CircuitFile files ("./iscas85/" ++ file ++ ".aig") ni no es → ∃ f : List (BDD m), IsCircuit es no f ∧
      ((∃ b ∈ f, ∃ x y, b.eval x ≠ b.eval y) → ∀ pops : Nat → List (List ℚ),
        (∀ k, ∀ ind ∈ pops k, ind.length = (supportPositions f).length) → ∀ fuel, nodeCount f < fuel → ∃ sz er,
          nsgaIscasRow fl asserts files rs file pops fuel m = .ok (file, nodeCount f, sz, er) ∧
          ReportsBest f ni pops (fun _ => True) sz er (fun _ => True))) ∧
    (∀ file path name, epflFilepath file = .ok path → epflFilename file = .ok name → CircuitFile files path ni no es →
      ∃ f : List (BDD m), IsCircuit es no f ∧
      ((∃ b ∈ f, ∃ x y, b.eval x ≠ b.eval y) → ∀ pops : Nat → List (List ℚ),
        (∀ k, ∀ ind ∈ pops k, ind.length = (supportPositions f).length) → ∀ fuel, nodeCount f < fuel → ∃ sz er,
          nsgaEpflRow fl asserts files rs file pops fuel m = .ok (name, nodeCount f, sz, er) ∧
          ReportsBest f ni pops (fun _ => True) sz er (fun _ => True))) := by
  constructor
  · rintro file ⟨vs, l, a, c1, c2, c3, c4⟩
    obtain ⟨s, h1, f, h2, h3⟩ := C67_circuit (m := m) asserts vs ni l no a es c1 c2 c3
    refine ⟨f, h3, fun hc pops hpops fuel hfuel => ?_⟩
    obtain ⟨res, r1, r2⟩ := circuit_experiment hfl rs (circuit_fits c2 h3.2) hni hc pops hpops fuel hfuel
    refine ⟨res.nodeCount, res.errorRate, ?_, r2⟩
    simp only [nsgaIscasRow, c4, h1, h2, r1, bind, Except.bind]
  · rintro file path name hp hn ⟨vs, l, a, c1, c2, c3, c4⟩
    obtain ⟨s, h1, f, h2, h3⟩ := C67_circuit (m := m) asserts vs ni l no a es c1 c2 c3
    refine ⟨f, h3, fun hc pops hpops fuel hfuel => ?_⟩
    obtain ⟨res, r1, r2⟩ := circuit_experiment hfl rs (circuit_fits c2 h3.2) hni hc pops hpops fuel hfuel
    refine ⟨res.nodeCount, res.errorRate, ?_, r2⟩
    simp only [nsgaEpflRow, loadEpfl, hp, hn, c4, h1, h2, r1, bind, Except.bind]

/-- The experiments take the circuits of the experiments with buckets, in the same order. -/
theorem C108_files : nsgaIscasFiles.map (fun s => Except.ok ("./iscas85/" ++ s ++ ".aig")) =
    minimizeIscasFiles.map iscasFilepath ∧ nsgaEpflFiles = minimizeEpflFiles :=
  ⟨rfl, rfl⟩

/-- A circuit whose file breaks off is taken as far as it was read, and for a missing file the random individuals are
undefined. -/
theorem C108_unreadable (fl : ℚ → ℚ) (asserts : Bool) (files : String → List AigEvent × Bool) (rs : Nat → Nat)
    (file : String) (pops : Nat → List (List ℚ)) (fuel : Nat) :
    nsgaIscasRow fl asserts (fun p => ((files p).1, false)) rs file pops fuel m =
      nsgaIscasRow fl asserts (fun p => ((files p).1, true)) rs file pops fuel m ∧
    nsgaIscasRow fl asserts (fun _ => ([], false)) rs file pops fuel m = .error .ub :=
  ⟨rfl, rfl⟩

/-! ### Examples -/

-- of the two individuals in the first population the second drops the function, which is wrong on one input of 64; the
-- rounding is exact here
example : (nsgaIscasRow id true sixFile (fun _ => 0) "c432" (fun _ => [[0, 0, 0, 0, 0, 0], [1, 0, 0, 0, 0, 0]]) 8
    .id).toOption = some ("c432", 7, 1, 1 / 64) := by decide +kernel
-- nothing acceptable was found
example : (nsgaEpflRow id true sixFile (fun _ => 0) 5 (fun _ => [[2, 2, 2, 0, 0, 0]]) 8 .id).toOption =
    some ("max.aig", 7, 2 ^ 64 - 1, 0) := by decide +kernel

end Verif

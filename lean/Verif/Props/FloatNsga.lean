import Verif.Proofs.FloatNsga
import Verif.Props.NsgaExperiments

/-! # C111 the genetic search on `double`s -/

namespace Verif

variable {m : Mgr} {rnd dec cv fl : ℚ → ℚ}

/-! ## `run_genetic_minimization` -/

/-- The figures of a run in which the individuals are the functions `g` with `seen g`. -/
structure ReportsF (f : List (BDD m)) (N : Nat) (both : Bool) (maxEr maxAce flEr flAce : ℚ)
    (seen : List (BDD m) → Prop) (res : GeneticResult) : Prop where
  /-- Nothing is found, or the figures belong to an individual that keeps the limits. Its nodes are counted correctly if
  it keeps the limits of type `float` too. Otherwise the count is at least 50 times too high. -/
  figures : (res.nodeCount = 2 ^ 64 - 1 ∧ res.errorRate = 0 ∧ res.ace = 0) ∨
    ∃ g, seen g ∧ nodeCount g < nodeCount f ∧ NearErrors N both f g res.errorRate res.ace ∧
      res.errorRate < maxEr ∧ (both = true → res.ace < maxAce) ∧
      (res.errorRate ≤ flEr → res.ace ≤ flAce → res.nodeCount = nodeCount g) ∧
      (flEr < res.errorRate ∨ flAce < res.ace → 50 * nodeCount g ≤ res.nodeCount)
  /-- No individual that keeps the limits, with room for the rounding, has fewer nodes. -/
  least : ∀ g, seen g → nodeCount g < nodeCount f → (both = false → 0 ≤ flAce) →
    (∀ er ace, NearErrors N both f g er ace → er < maxEr ∧ er ≤ flEr ∧ (both = true → ace < maxAce ∧ ace ≤ flAce)) →
    res.nodeCount ≤ nodeCount g

/-- The individuals of the first `K` rounds. -/
def SeenIn (f : List (BDD m)) (pops : Nat → List (List ℚ)) (K : Nat) (g : List (BDD m)) : Prop :=
  ∃ k, k < K ∧ ∃ ind ∈ pops k, functionFromIndividuum f ind = .ok g

theorem foundF_errors (hr : Nearest rnd) (hd : Dec100 dec) (hc : DecToDouble rnd cv) {pr : MinProblem m} {N : Nat}
    {maxEr maxAce : ℚ} (hg : GoodRunF N pr maxEr) {ind : List ℚ}
    (hl : (supportPositions pr.original).length ≤ ind.length) {g : List (BDD m)} {er ace : ℚ}
    (h : FoundF rnd dec cv pr maxEr maxAce ind g er ace) : NearErrors N pr.erAndAce pr.original g er ace := by
  obtain ⟨g', h1, h2, -, -⟩ := functionFromIndividuum_spec pr.original ind hl
  have := h.fn
  rw [h1] at this
  obtain rfl := Except.ok.inj this
  obtain ⟨er', ace', he, hs⟩ := individuumErrorsF_spec hr hd hc pr.erAndAce pr.original g' N h2.symm hg.fits
    (functionFromIndividuum_fits hl h1 hg.fits) hg.vars hg.both hg.ne
  have := h.errors
  rw [he] at this
  cases this
  exact hs

theorem valF_keep {pr : MinProblem m} {er ace : ℚ} (h1 : er ≤ pr.maxErrorRate) (h2 : ace ≤ pr.maxAce)
    (g : List (BDD m)) : valF rnd pr g er ace = nodeCount g := by
  rw [valF, punishF_keep h1 h2, Int.floor_natCast, Int.toNat_natCast]

/-- Whatever populations the genetic algorithm produces and however the limits are rounded to `float`, the search stops
and its figures are those of an individual up to rounding. The number of rounds is at most `2^64`, and at most one more
than the original has nodes if the limits are not rounded down. -/
theorem C111_result (hr : Nearest rnd) (hd : Dec100 dec) (hc : DecToDouble rnd cv) (fl : ℚ → ℚ) (f : List (BDD m))
    (maxEr maxAce : ℚ) (both : Bool) (pops : Nat → List (List ℚ)) (N fuel : Nat) (hf : Fits N f) (hne : f ≠ [])
    (hN : N ≤ 1000) (hb : both = true → f.length + 1 + N ≤ 256) (hcount : nodeCount f < 2 ^ 31)
    (hpops : ∀ k, ∀ ind ∈ pops k, (supportPositions f).length ≤ ind.length) (h100 : maxEr ≤ 100)
    (hfuel : 2 ^ 64 ≤ fuel ∨ (maxEr ≤ fl maxEr ∧ maxAce ≤ fl maxAce ∧ 0 ≤ fl maxAce ∧ nodeCount f < fuel)) :
    ∃ res K, runGeneticF rnd dec cv fl f maxEr maxAce both pops fuel = .ok res ∧ 1 ≤ K ∧ K ≤ 2 ^ 64 ∧
      (maxEr ≤ fl maxEr → maxAce ≤ fl maxAce → 0 ≤ fl maxAce → K ≤ nodeCount f + 1) ∧
      ReportsF f N both maxEr maxAce (fl maxEr) (fl maxAce) (SeenIn f pops K) res := by
  have hg : GoodRunF N (⟨f, fl maxEr, fl maxAce, both⟩ : MinProblem m) maxEr := ⟨hf, hN, hb, hne, h100, hcount⟩
  have run : ∀ (B F : Nat), (B = 2 ^ 64 ∨ ∀ ind g er ace,
      FoundF rnd dec cv (⟨f, fl maxEr, fl maxAce, both⟩ : MinProblem m) maxEr maxAce ind g er ace →
        (supportPositions f).length ≤ ind.length →
        valF rnd (⟨f, fl maxEr, fl maxAce, both⟩ : MinProblem m) g er ace < B) → (2 ^ 64 ≤ F ∨ B < F) → F ≤ fuel →
      ∃ res K, runGeneticF rnd dec cv fl f maxEr maxAce both pops fuel = .ok res ∧ 1 ≤ K ∧ K ≤ F ∧
        ReportsF f N both maxEr maxAce (fl maxEr) (fl maxAce) (SeenIn f pops K) res := by
    intro B F hB hF hle
    obtain ⟨res, K, h1, h2, h3, h4, h5⟩ := geneticLoopF_spec hr hd hc (maxAce := maxAce) hg pops hpops B
      hB F 0 noResult
      (by simp only [noResult]; omega) (.inl rfl) (.inl rfl) (fun j hj => by omega)
    refine ⟨res, K, geneticLoopF_mono _ _ _ _ _ _ _ _ _ hle h1, by omega, by omega, ?_, ?_⟩
    · rcases h4 with rfl | ⟨ind, g, er, ace, ⟨k, hk, hi⟩, hF, rfl⟩
      · exact .inl ⟨rfl, rfl, rfl⟩
      · have hs := foundF_errors hr hd hc hg (hpops k ind hi) hF
        have hace : (if both then ace else 0) = ace := by
          cases hb : both with
          | true => rfl
          | false => exact (hs.zero hb).symm
        refine .inr ⟨g, ⟨k, hk, ind, hi, hF.fn⟩, hF.less, ?_, hF.erLt, ?_, ?_, ?_⟩
        · simp only [hace]; exact hs
        · simp only [hace]; exact hF.aceLt
        · simp only [hace]
          exact fun a1 a2 => valF_keep (pr := ⟨f, fl maxEr, fl maxAce, both⟩) a1 a2 g
        · simp only [hace]
          intro a1
          obtain ⟨-, -, p3⟩ := punishF_ge hr (⟨f, fl maxEr, fl maxAce, both⟩ : MinProblem m) (nodeCount g)
            (by have := hF.less; dsimp only at this; omega) hs.rate0 hs.rate1 hs.avg0 hs.avg1
          have : ((50 * nodeCount g : Nat) : ℤ) ≤ ⌊punishF rnd (⟨f, fl maxEr, fl maxAce, both⟩ : MinProblem m)
              (nodeCount g) er ace⌋ := Int.le_floor.mpr (by push_cast; exact p3 a1)
          show 50 * nodeCount g ≤ (⌊_⌋ : ℤ).toNat
          omega
    · rintro g ⟨k, hk, ind, hi, hgf⟩ hlt hz herr
      obtain ⟨g', e1, e2, -⟩ := functionFromIndividuum_spec f ind (hpops k ind hi)
      rw [hgf] at e1
      obtain rfl := Except.ok.inj e1
      obtain ⟨er, ace, he, hs⟩ := individuumErrorsF_spec hr hd hc both f g N e2.symm hf
        (functionFromIndividuum_fits (hpops k ind hi) hgf hf) hN hb hne
      obtain ⟨a1, a2, a3⟩ := herr er ace hs
      have := h5 k hk ind hi g er ace ⟨hgf, hlt, he, a1, fun hb => (a3 hb).1⟩
      rwa [valF_keep (pr := ⟨f, fl maxEr, fl maxAce, both⟩) a2] at this
      cases hb : both with
      | true => exact (a3 hb).2
      | false => exact (hs.zero hb).le.trans (hz hb)
  by_cases hlim : maxEr ≤ fl maxEr ∧ maxAce ≤ fl maxAce ∧ 0 ≤ fl maxAce
  · have hfu : nodeCount f + 1 ≤ fuel := by
      rcases hfuel with h | h
      · omega
      · omega
    have hB : ∀ ind g er ace, FoundF rnd dec cv (⟨f, fl maxEr, fl maxAce, both⟩ : MinProblem m) maxEr maxAce ind g er ace →
        (supportPositions f).length ≤ ind.length →
        valF rnd (⟨f, fl maxEr, fl maxAce, both⟩ : MinProblem m) g er ace < nodeCount f := by
      intro ind g er ace hF hl
      have hs := foundF_errors hr hd hc hg hl hF
      rw [valF_keep (pr := ⟨f, fl maxEr, fl maxAce, both⟩) (hF.erLt.le.trans hlim.1)]
      · exact hF.less
      · cases hb : both with
        | true => exact (hF.aceLt hb).le.trans hlim.2.1
        | false => exact (hs.zero hb).le.trans hlim.2.2
    obtain ⟨res, K, h1, h2, h3, h4⟩ := run (nodeCount f) (nodeCount f + 1) (.inr hB) (.inr (by omega)) hfu
    exact ⟨res, K, h1, h2, by omega, fun _ _ _ => h3, h4⟩
  · have hfu : 2 ^ 64 ≤ fuel := by
      rcases hfuel with h | h
      · exact h
      · exact absurd ⟨h.1, h.2.1, h.2.2.1⟩ hlim
    obtain ⟨res, K, h1, h2, h3, h4⟩ := run (2 ^ 64) (2 ^ 64) (.inl rfl) (.inl le_rfl) hfu
    exact ⟨res, K, h1, h2, h3, fun a b c => absurd ⟨a, b, c⟩ hlim, h4⟩

theorem scan_same (hr : Nearest rnd) (hd : Dec100 dec) (hc : DecToDouble rnd cv) {N : Nat} {pr : MinProblem m}
    {maxEr maxAce : ℚ} (hg : GoodRunF N pr maxEr) (hg' : GoodRun N pr maxEr maxAce) (h53 : N ≤ 53)
    (h53' : pr.erAndAce = true → N + pr.original.length ≤ 53) : ∀ (pop : List (List ℚ)) (best : GeneticResult),
    (∀ ind ∈ pop, (supportPositions pr.original).length ≤ ind.length) → CountOk best.nodeCount →
    scanPopulationF rnd dec cv pr maxEr maxAce pr.erAndAce pop best =
      scanPopulation pr maxEr maxAce pr.erAndAce pop best ∧
    ∀ best', scanPopulation pr maxEr maxAce pr.erAndAce pop best = .ok best' → CountOk best'.nodeCount
  | [], best, _, hC => ⟨rfl, fun best' h => by cases h; exact hC⟩
  | ind :: rest, best, hp, hC => by
      have hl := hp ind (by simp)
      have ih := fun b => scan_same hr hd hc hg hg' h53 h53' rest b (fun i hi => hp i (by simp [hi]))
      have exact : ∀ {g er ace}, NearErrors N pr.erAndAce pr.original g er ace →
          ErrorsOf N pr.erAndAce pr.original g er ace := fun h =>
        ⟨h.exact h53, h.rate0, h.rate1, fun hb => h.avgExact hb (h53' hb), h.avg0, h.zero⟩
      have same : ∀ {g er ace er' ace'}, ErrorsOf N pr.erAndAce pr.original g er ace →
          ErrorsOf N pr.erAndAce pr.original g er' ace' → er = er' ∧ ace = ace' := fun {g er ace er' ace'} h h' => by
        refine ⟨h.rate.trans h'.rate.symm, ?_⟩
        cases hb : pr.erAndAce with
        | true => exact (h.avg hb).trans (h'.avg hb).symm
        | false => exact (h.zero hb).trans (h'.zero hb).symm
      have toF : ∀ {g er ace}, Found N pr maxEr maxAce ind g er ace → FoundF rnd dec cv pr maxEr maxAce ind g er ace := by
        intro g er ace h
        obtain ⟨g', e1, e2, -⟩ := functionFromIndividuum_spec pr.original ind hl
        rw [h.fn] at e1
        obtain rfl := Except.ok.inj e1
        obtain ⟨er', ace', he, hs⟩ := individuumErrorsF_spec hr hd hc pr.erAndAce pr.original g N e2.symm hg.fits
          (functionFromIndividuum_fits hl h.fn hg.fits) hg.vars hg.both hg.ne
        obtain ⟨rfl, rfl⟩ := same h.errors (exact hs)
        exact ⟨h.fn, h.less, he, h.erLt, h.aceLt⟩
      have ofF : ∀ {g er ace}, FoundF rnd dec cv pr maxEr maxAce ind g er ace → Found N pr maxEr maxAce ind g er ace :=
        fun h => ⟨h.fn, h.less, exact (foundF_errors hr hd hc hg hl h), h.erLt, h.aceLt⟩
      have val : ∀ {g er ace}, Found N pr maxEr maxAce ind g er ace → valF rnd pr g er ace = nodeCount g := by
        intro g er ace h
        refine valF_keep (h.erLt.le.trans hg'.er) ?_ g
        cases hb : pr.erAndAce with
        | true => exact (h.aceLt hb).le.trans (hg'.ace hb)
        | false => exact (h.errors.zero hb).le.trans (hg'.ace0 hb)
      rcases scanF_one hr hd hc (maxAce := maxAce) hg ind hl best hC with ⟨g, er, ace, hF, hlt, hC', he⟩ | ⟨hmin, he⟩ <;>
        rcases scan_one hg' ind hl best with ⟨g', er', ace', hF', hlt', he'⟩ | ⟨hmin', he'⟩
      · have := hF'.fn
        rw [hF.fn] at this
        obtain rfl := Except.ok.inj this
        obtain ⟨rfl, rfl⟩ := same (ofF hF).errors hF'.errors
        rw [val hF'] at he hC'
        rw [he, he']
        exact ih _ hC'
      · have := hmin' g er ace (ofF hF)
        rw [val (ofF hF)] at hlt
        omega
      · have := hmin g' er' ace' (toF hF')
        rw [val hF'] at this
        omega
      · rw [he, he']
        exact ih _ hC

theorem loop_same (hr : Nearest rnd) (hd : Dec100 dec) (hc : DecToDouble rnd cv) {N : Nat} {pr : MinProblem m}
    {maxEr maxAce : ℚ} (hg : GoodRunF N pr maxEr) (hg' : GoodRun N pr maxEr maxAce) (h53 : N ≤ 53)
    (h53' : pr.erAndAce = true → N + pr.original.length ≤ 53) (pops : Nat → List (List ℚ))
    (hp : ∀ k, ∀ ind ∈ pops k, (supportPositions pr.original).length ≤ ind.length) :
    ∀ (fuel k : Nat) (best : GeneticResult), CountOk best.nodeCount →
    geneticLoopF rnd dec cv pr maxEr maxAce pr.erAndAce pops fuel k best =
      geneticLoop pr maxEr maxAce pr.erAndAce pops fuel k best
  | 0, _, _, _ => rfl
  | fuel + 1, k, best, hC => by
      obtain ⟨h1, h2⟩ := scan_same hr hd hc hg hg' h53 h53' (pops k) best (hp k) hC
      rw [geneticLoopF, geneticLoop, h1]
      simp only [bind, Except.bind]
      cases hs : scanPopulation pr maxEr maxAce pr.erAndAce (pops k) best with
      | error e => rfl
      | ok b =>
          dsimp only
          split
          · rfl
          · exact loop_same hr hd hc hg hg' h53 h53' pops hp fuel (k + 1) b (h2 b hs)

/-- For small functions, and limits that are not rounded down, nothing is lost: the search gives what it gives with
exact numbers. -/
theorem C111_same (hr : Nearest rnd) (hd : Dec100 dec) (hc : DecToDouble rnd cv) (fl : ℚ → ℚ) (f : List (BDD m))
    (maxEr maxAce : ℚ) (both : Bool) (pops : Nat → List (List ℚ)) (N fuel : Nat) (hf : Fits N f) (hne : f ≠ [])
    (hN : N ≤ 53) (hb : both = true → N + f.length ≤ 53) (hcount : nodeCount f < 2 ^ 31)
    (hpops : ∀ k, ∀ ind ∈ pops k, (supportPositions f).length ≤ ind.length) (h100 : maxEr ≤ 100)
    (hfl : maxEr ≤ fl maxEr) (hfl' : maxAce ≤ fl maxAce) (h0 : 0 ≤ fl maxAce) :
    runGeneticF rnd dec cv fl f maxEr maxAce both pops fuel = runGenetic fl f maxEr maxAce both pops fuel :=
  loop_same (pr := ⟨f, fl maxEr, fl maxAce, both⟩) hr hd hc
    ⟨hf, by omega, fun h => by have := hb h; dsimp only; omega, hne, h100, hcount⟩
    ⟨hf, by omega, fun h => by have := hb h; dsimp only; omega, h100, hfl, fun _ => hfl', fun _ => h0⟩
    hN hb pops hpops fuel 0 noResult (.inl rfl)

/-! ## The experiments -/

theorem geneticExperimentF_spec (hr : Nearest rnd) (hd : Dec100 dec) (hc : DecToDouble rnd cv)
    (hfl : FloatConversion fl) (rs : Nat → Nat) (f : List (BDD m)) (maxAce : Nat)
    (hace : maxAce < 2 ^ 24) (both : Bool) (pops : Nat → List (List ℚ)) (N : Nat) (hf : Fits N f) (hN : N ≤ 1000)
    (hb : both = true → f.length + 1 + N ≤ 256) (hpos : supportPositions f ≠ []) (hcount : nodeCount f < 2 ^ 31)
    (hpops : ∀ k, ∀ ind ∈ pops k, ind.length = (supportPositions f).length) (fuel : Nat) (hfuel : nodeCount f < fuel) :
    ∃ res K, geneticExperimentF rnd dec cv fl rs f maxAce both pops fuel = .ok res ∧ 1 ≤ K ∧ K ≤ nodeCount f + 1 ∧
      ReportsF f N both double005 maxAce (13421773 / 2 ^ 28) maxAce (SeenIn f pops K) res ∧
      (N ≤ 53 → (both = true → N + f.length ≤ 53) → geneticExperiment fl rs f maxAce both pops fuel = .ok res) := by
  obtain ⟨pop, hp, -⟩ := C82_population f rs 3 100 0 hpos
  have hne : f ≠ [] := by rintro rfl; exact hpos rfl
  obtain ⟨l1, l2⟩ := C108_limit hfl
  have l3 := float_nat hfl maxAce hace
  have l4 : (0 : ℚ) ≤ fl maxAce := by rw [l3]; positivity
  obtain ⟨res, K, h1, h2, -, h3, h4⟩ := C111_result hr hd hc fl f double005 maxAce both pops N fuel hf hne hN hb hcount
    (fun k ind hi => (hpops k ind hi).ge) (by norm_num [double005]) (.inr ⟨l1.le, l3.ge, l4, hfuel⟩)
  rw [l2, l3] at h4
  refine ⟨res, K, ?_, h2, h3 l1.le l3.ge l4, h4, fun a b => ?_⟩
  · simp only [geneticExperimentF, hp, bind, Except.bind]
    exact h1
  · rw [C111_same hr hd hc fl f double005 maxAce both pops N fuel hf hne a b hcount
      (fun k ind hi => (hpops k ind hi).ge) (by norm_num [double005]) l1.le l3.ge l4] at h1
    simp only [geneticExperiment, hp, bind, Except.bind]
    exact h1

/-- Each row of the adder experiment. The rows for 8 and 16 bits are those of the computation with exact numbers. -/
theorem C111_adders (hr : Nearest rnd) (hd : Dec100 dec) (hc : DecToDouble rnd cv) (hfl : FloatConversion fl)
    (rs : Nat → Nat) :
    ∀ e ∈ nsgaAdderArgs, ∃ f : List (BDD m), (∀ x, uAt f x = opA e.1 x + opB e.1 x) ∧ f.length = e.1 + 1 ∧
      (nodeCount f < 2 ^ 31 →
      ∀ pops : Nat → List (List ℚ), (∀ k, ∀ ind ∈ pops k, ind.length = (supportPositions f).length) →
      ∀ fuel, nodeCount f < fuel → ∃ res K,
        nsgaAdderRowF rnd dec cv fl rs e.1 e.2 pops fuel m =
          .ok (e.1, nodeCount f, res.nodeCount, res.errorRate, res.ace) ∧ 1 ≤ K ∧ K ≤ nodeCount f + 1 ∧
        ReportsF f (2 * e.1) true double005 e.2 (13421773 / 2 ^ 28) e.2 (SeenIn f pops K) res ∧
        (e.1 ≤ 16 → nsgaAdderRow fl rs e.1 e.2 pops fuel m =
          .ok (e.1, nodeCount f, res.nodeCount, res.errorRate, res.ace))) := by
  intro e he
  obtain ⟨n, a, rfl, hn', ha, hne⟩ : ∃ n a : Nat, e = (n, (a : ℚ)) ∧ n ≤ 32 ∧ a < 2 ^ 24 ∧
      opA n (fun _ => false) + opB n (fun _ => false) ≠ opA n (fun _ => true) + opB n (fun _ => true) := by
    simp only [nsgaAdderArgs, List.mem_cons, List.not_mem_nil, or_false] at he
    rcases he with rfl | rfl | rfl
    · exact ⟨8, 7, by norm_num, by norm_num, by norm_num, by decide⟩
    · exact ⟨16, 35, by norm_num, by norm_num, by norm_num, by decide⟩
    · exact ⟨32, 9000, by norm_num, by norm_num, by norm_num, by decide⟩
  obtain ⟨f, h1, h2⟩ := regularAdder_spec (m := m) n
  have hv := regular_value h2
  refine ⟨f, hv, h2.len, fun hcount pops hpops fuel hfuel => ?_⟩
  have hpos : supportPositions f ≠ [] := by
    apply supportPositions_ne_nil
    by_contra hno
    push Not at hno
    have e1 := hv (fun _ => false)
    have e2 := hv (fun _ => true)
    have : uAt f (fun _ => false) = uAt f (fun _ => true) := by
      unfold uAt bitsAt
      exact congrArg uval (List.map_congr_left fun b hb => hno b hb _ _)
    rw [e1, e2] at this
    exact hne this
  obtain ⟨res, K, r1, r2, r3, r4, r5⟩ := geneticExperimentF_spec hr hd hc hfl rs f a ha true pops (2 * n) h2.fits (by omega)
    (fun _ => by rw [h2.len]; omega) hpos hcount hpops fuel hfuel
  refine ⟨res, K, ?_, r2, r3, r4, fun h16 => ?_⟩
  · simp only [nsgaAdderRowF, h1, r1, bind, Except.bind]
  · have h16' : n ≤ 16 := h16
    simp only [nsgaAdderRow, h1, r5 (by omega) (fun _ => by rw [h2.len]; omega), bind, Except.bind]

/-- Each row of the circuit experiments. The rows for circuits with at most 53 inputs are those of the computation with
exact numbers. -/
theorem C111_circuits (hr : Nearest rnd) (hd : Dec100 dec) (hc : DecToDouble rnd cv) (hfl : FloatConversion fl)
    (asserts : Bool) (files : String → List AigEvent × Bool) (rs : Nat → Nat) (ni no : Nat) (es : List AigEvent)
    (hni : ni ≤ 1000) :
    (∀ file, CircuitFile files ("./iscas85/" ++ file ++ ".aig") ni no es → ∃ f : List (BDD m), IsCircuit es no f ∧
      ((∃ b ∈ f, ∃ x y, b.eval x ≠ b.eval y) → nodeCount f < 2 ^ 31 → ∀ pops : Nat → List (List ℚ),
        (∀ k, ∀ ind ∈ pops k, ind.length = (supportPositions f).length) → ∀ fuel, nodeCount f < fuel → ∃ res K,
          nsgaIscasRowF rnd dec cv fl asserts files rs file pops fuel m =
            .ok (file, nodeCount f, res.nodeCount, res.errorRate) ∧ 1 ≤ K ∧ K ≤ nodeCount f + 1 ∧
          ReportsF f ni false double005 0 (13421773 / 2 ^ 28) 0 (SeenIn f pops K) res ∧
          (ni ≤ 53 → nsgaIscasRow fl asserts files rs file pops fuel m =
            .ok (file, nodeCount f, res.nodeCount, res.errorRate)))) ∧
    (∀ file path name, epflFilepath file = .ok path → epflFilename file = .ok name → CircuitFile files path ni no es →
      ∃ f : List (BDD m), IsCircuit es no f ∧
      ((∃ b ∈ f, ∃ x y, b.eval x ≠ b.eval y) → nodeCount f < 2 ^ 31 → ∀ pops : Nat → List (List ℚ),
        (∀ k, ∀ ind ∈ pops k, ind.length = (supportPositions f).length) → ∀ fuel, nodeCount f < fuel → ∃ res K,
          nsgaEpflRowF rnd dec cv fl asserts files rs file pops fuel m =
            .ok (name, nodeCount f, res.nodeCount, res.errorRate) ∧ 1 ≤ K ∧ K ≤ nodeCount f + 1 ∧
          ReportsF f ni false double005 0 (13421773 / 2 ^ 28) 0 (SeenIn f pops K) res ∧
          (ni ≤ 53 → nsgaEpflRow fl asserts files rs file pops fuel m =
            .ok (name, nodeCount f, res.nodeCount, res.errorRate)))) := by
  constructor
  · rintro file ⟨vs, l, a, c1, c2, c3, c4⟩
    obtain ⟨s, h1, f, h2, h3⟩ := C67_circuit (m := m) asserts vs ni l no a es c1 c2 c3
    refine ⟨f, h3, fun hcon hcount pops hpops fuel hfuel => ?_⟩
    obtain ⟨res, K, r1, r2, r3, r4, r5⟩ := geneticExperimentF_spec hr hd hc hfl rs f 0 (by norm_num) false pops ni
      (circuit_fits c2 h3.2) hni (by simp) (supportPositions_ne_nil hcon) hcount hpops fuel hfuel
    simp only [Nat.cast_zero] at r1 r4 r5
    refine ⟨res, K, ?_, r2, r3, r4, fun h => ?_⟩
    · simp only [nsgaIscasRowF, c4, h1, h2, r1, bind, Except.bind]
    · simp only [nsgaIscasRow, c4, h1, h2, r5 h (by simp), bind, Except.bind]
  · rintro file path name hp hn ⟨vs, l, a, c1, c2, c3, c4⟩
    obtain ⟨s, h1, f, h2, h3⟩ := C67_circuit (m := m) asserts vs ni l no a es c1 c2 c3
    refine ⟨f, h3, fun hcon hcount pops hpops fuel hfuel => ?_⟩
    obtain ⟨res, K, r1, r2, r3, r4, r5⟩ := geneticExperimentF_spec hr hd hc hfl rs f 0 (by norm_num) false pops ni
      (circuit_fits c2 h3.2) hni (by simp) (supportPositions_ne_nil hcon) hcount hpops fuel hfuel
    simp only [Nat.cast_zero] at r1 r4 r5
    refine ⟨res, K, ?_, r2, r3, r4, fun h => ?_⟩
    · simp only [nsgaEpflRowF, loadEpfl, hp, hn, c4, h1, h2, r1, bind, Except.bind]
    · simp only [nsgaEpflRow, loadEpfl, hp, hn, c4, h1, h2, r5 h (by simp), bind, Except.bind]

/-! ### Examples -/

-- the hypotheses about the conversions can be met
example : ∃ rnd cv dec fl, Nearest rnd ∧ DecToDouble rnd cv ∧ Dec100 dec ∧ FloatConversion fl :=
  let ⟨rnd, cv, dec, h1, h2, h3⟩ := exists_conversion
  let ⟨fl, h4⟩ := exists_floatConversion
  ⟨rnd, cv, dec, fl, h1, h2, h3, h4⟩
-- and those about the function
example : Fits 6 ([(BDD.var 0).and (.var 5)] : List (BDD .id)) ∧ ([(BDD.var 0).and (.var 5)] : List (BDD .id)) ≠ [] ∧
    nodeCount ([(BDD.var 0).and (.var 5)] : List (BDD .id)) < 2 ^ 31 ∧
    (supportPositions ([(BDD.var 0).and (.var 5)] : List (BDD .id))).length = 2 := by decide +kernel
-- the second individual of the first population is wrong on one input of 64; exact conversions suffice here
example : (nsgaIscasRowF id id id id true sixFile (fun _ => 0) "c432"
    (fun _ => [[0, 0, 0, 0, 0, 0], [1, 0, 0, 0, 0, 0]]) 8 .id).toOption = some ("c432", 7, 1, 1 / 64) := by
  decide +kernel
-- a limit that is rounded down
example : (runGeneticF id id id (fun _ => 0) [(BDD.var 0 : BDD .id).and (.var 1)] (1 / 2) 0 false (fun _ => [[0, 1]])
    3).toOption = some ⟨2550, 1 / 4, 0⟩ := by decide +kernel

end Verif

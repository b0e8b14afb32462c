import Verif.Proofs.Nsga

/-!
# C82, C83, C84: minimisation by a genetic algorithm

`/repo/experiments/minimization/nsga2`.  The populations are arbitrary.
-/

namespace Verif

variable {m : Mgr}

/-! ## C82 individuals -/

/-- There is one parameter for every bit and every variable the bit depends on, in the order of the bits
and, within a bit, of the variables. -/
theorem C82_positions (f : List (BDD m)) :
    (∀ i v, (i, v) ∈ supportPositions f ↔ ∃ b, f[i]? = some b ∧
      ∃ x, b.eval (Function.update x v true) ≠ b.eval (Function.update x v false)) ∧
    (supportPositions f).Pairwise (fun p q => p.1 < q.1 ∨ p.1 = q.1 ∧ p.2 < q.2) := by
  refine ⟨fun i v => ?_, sorted_supportPositions f⟩
  rw [mem_supportPositions]
  simp only [BDD.mem_supportIndices]

/-- Bit `i` of the individual at input `x` is bit `i` of the original at the input `y` that has, for every
variable of the bit, the value the parameter asks for: above 1.5 true, above 0.5 false, else that of `x`. -/
theorem C82_individuum (f : List (BDD m)) (params : List ℚ)
    (hl : (supportPositions f).length ≤ params.length) :
    ∃ g, functionFromIndividuum f params = .ok g ∧ g.length = f.length ∧
      ∀ (i : Nat) (b : BDD m), f[i]? = some b → ∃ b' : BDD m, g[i]? = some b' ∧ ∀ x y : Asg,
        (∀ (v k : Nat) (p : ℚ), (supportPositions f)[k]? = some (i, v) → params[k]? = some p →
          (3 / 2 < p → y v = true) ∧ (1 / 2 < p ∧ p ≤ 3 / 2 → y v = false) ∧ (p ≤ 1 / 2 → y v = x v)) →
        b'.eval x = b.eval y := by
  obtain ⟨g, h1, h2, -, h4⟩ := functionFromIndividuum_spec f params hl
  refine ⟨g, h1, h2, fun i b hb => ?_⟩
  obtain ⟨b', hb', hs⟩ := h4 i b hb
  refine ⟨b', hb', fun x y hy => hs x y (fun v k hk => ?_)⟩
  have hk' : k < params.length := by
    have := (List.getElem?_eq_some_iff.mp hk).1
    omega
  refine ⟨params[k], by simp [hk'], ?_⟩
  obtain ⟨g1, g2, g3⟩ := hy v k params[k] hk (by simp [hk'])
  rw [picked]
  by_cases c1 : params[k] > 3 / 2
  · rw [if_pos c1]; exact g1 c1
  · rw [if_neg c1]
    by_cases c2 : params[k] > 1 / 2
    · rw [if_pos c2]; exact g2 ⟨c2, by linarith⟩
    · rw [if_neg c2]; exact g3 (by linarith)

/-- The default individual is the original function. -/
theorem C82_default (f : List (BDD m)) : functionFromIndividuum f (getBounds f).1 = .ok f := by
  obtain ⟨g, h1, -, h3, -⟩ := functionFromIndividuum_spec f (getBounds f).1 (by simp [getBounds])
  rw [h1, h3 (fun q hq => ?_)]
  simp only [getBounds, List.mem_replicate] at hq
  rw [hq.2]; norm_num

/-- Too few parameters: the vector is read behind its end. -/
theorem C82_short (f : List (BDD m)) (params : List ℚ) (h : params.length < (supportPositions f).length) :
    functionFromIndividuum f params = .error .ub :=
  individuumLoop_ub params _ 0 f (fun _ hp => supportPositions_lt hp) (by omega) (by omega)

/-- No bit gets a larger support. -/
theorem C82_support (f g : List (BDD m)) (params : List ℚ) (hl : (supportPositions f).length ≤ params.length)
    (h : functionFromIndividuum f params = .ok g) (i : Nat) (b b' : BDD m) (hb : f[i]? = some b)
    (hb' : g[i]? = some b') (v : Nat) (hv : v ∈ b'.supportIndices) : v ∈ b.supportIndices := by
  obtain ⟨g', h1, -, -, h4⟩ := functionFromIndividuum_spec f params hl
  rw [h] at h1
  obtain rfl := Except.ok.inj h1
  obtain ⟨b'', hb'', hs⟩ := h4 i b hb
  rw [hb'] at hb''
  obtain rfl := Option.some.inj hb''
  refine support_of_eval (b := b) (fun x y hxy => ?_) v hv
  rw [hs x (chosen f params i x) (fun v j hv => chosen_spec f params hl i x v j hv),
    hs y (chosen f params i y) (fun v j hv => chosen_spec f params hl i y v j hv)]
  apply BDD.eval_congr
  intro w hw
  rw [chosen, chosen, hxy w hw]

/-- Although every step is a cofactor, the shared diagram of an individual can be larger than that of the
original: two equal bits share all nodes, the cofactor of one of them does not. -/
theorem C82_can_grow : ∃ (f g : List (BDD Mgr.id)) (params : List ℚ),
    params.length = (supportPositions f).length ∧ (∀ q ∈ params, q = 0 ∨ q = 1 ∨ q = 2) ∧
    functionFromIndividuum f params = .ok g ∧ nodeCount f < nodeCount g := by
  let b : BDD Mgr.id := (BDD.var 0).xor ((BDD.var 1).and (.var 2))
  refine ⟨[b, b], [b, (BDD.var 0).xor (.var 2)], [0, 0, 0, 0, 2, 0], ?_, ?_, ?_, ?_⟩
  · decide +kernel
  · decide +kernel
  · have : (functionFromIndividuum [b, b] [0, 0, 0, 0, 2, 0]).toOption =
        some [b, (BDD.var 0).xor (.var 2)] := by decide +kernel
    cases h : functionFromIndividuum [b, b] [0, 0, 0, 0, 2, 0] with
    | error e => rw [h] at this; simp [Except.toOption] at this
    | ok r => rw [h] at this; simpa [Except.toOption] using this
  · decide +kernel

/-- The random individuals: every entry is 0, 1 or 2 and lies within the bounds, at most
`initialization_count` of them are not 0. -/
theorem C82_population (f : List (BDD m)) (rs : Nat → Nat) (c p k : Nat) (hne : supportPositions f ≠ []) :
    ∃ pop, makePopulation f rs c p k = .ok pop ∧ pop.length = p ∧ ∀ d ∈ pop,
      d.length = (supportPositions f).length ∧ (∀ q ∈ d, q = 0 ∨ q = 1 ∨ q = 2) ∧ d.countP (· ≠ 0) ≤ c := by
  induction p generalizing k with
  | zero => exact ⟨[], rfl, rfl, by simp⟩
  | succ p ih =>
      have hl : 0 < (supportPositions f).length := List.length_pos_iff.mpr hne
      obtain ⟨d, h1, h2, h3, h4⟩ := initLoop_spec rs c k (getBounds f).1 (by
        intro h
        have := congrArg List.length h
        simp [getBounds] at this
        exact hne this)
      obtain ⟨pop, g1, g2, g3⟩ := ih (k + 2 * c)
      refine ⟨d :: pop, ?_, by simp [g2], ?_⟩
      · rw [makePopulation]
        simp only [h1, bind, Except.bind, g1]
      · intro d' hd'
        rcases List.mem_cons.mp hd' with rfl | hd'
        · refine ⟨by simpa [getBounds] using h2, fun q hq => ?_, ?_⟩
          · rcases h3 q hq with h | h
            · left
              simp only [getBounds, List.mem_replicate] at h
              exact h.2
            · exact .inr h
          · have : List.countP (· ≠ 0) (getBounds f).1 = 0 := by
              simp [getBounds, List.countP_replicate]
            omega
        · exact g3 d' hd'

/-- There is a lower and an upper bound for each parameter, the random individuals keep to them, and the individual at
the upper bounds sets all variables to true. -/
theorem C82_bounds (f : List (BDD m)) : (getBounds f).1.length = (supportPositions f).length ∧
    (getBounds f).2.length = (supportPositions f).length ∧
    (∀ (rs : Nat → Nat) (c p k : Nat) (pop : List (List ℚ)), makePopulation f rs c p k = .ok pop → ∀ d ∈ pop,
      supportPositions f ≠ [] → ∀ (i : Nat) (q lo hi : ℚ), d[i]? = some q → (getBounds f).1[i]? = some lo →
        (getBounds f).2[i]? = some hi → lo ≤ q ∧ q ≤ hi) ∧
    ∃ g, functionFromIndividuum f (getBounds f).2 = .ok g ∧ ∀ (i : Nat) (b : BDD m), f[i]? = some b →
      ∃ b', g[i]? = some b' ∧ ∀ x, b'.eval x = b.eval (fun _ => true) := by
  have h2 : (getBounds f).2.length = (supportPositions f).length := by simp [getBounds]
  have up : ∀ (i : Nat) (hi : ℚ), (getBounds f).2[i]? = some hi → hi = 2 := fun i hi h => by
    have := List.mem_of_getElem? h
    simp only [getBounds, List.mem_replicate] at this
    exact this.2
  refine ⟨by simp [getBounds], h2, ?_, ?_⟩
  · intro rs c p k pop hpop d hd hne i q lo hi hq hlo hhi
    obtain ⟨pop', e, -, hall⟩ := C82_population f rs c p k hne
    rw [hpop] at e
    obtain rfl := Except.ok.inj e
    have h3 := (hall d hd).2.1 q (List.mem_of_getElem? hq)
    have h4 := List.mem_of_getElem? hlo
    simp only [getBounds, List.mem_replicate] at h4
    rw [up i hi hhi, h4.2]
    rcases h3 with rfl | rfl | rfl <;> norm_num
  · obtain ⟨g, h1, -, -, h4⟩ := functionFromIndividuum_spec f (getBounds f).2 h2.ge
    refine ⟨g, h1, fun i b hb => ?_⟩
    obtain ⟨b', hb', hs⟩ := h4 i b hb
    refine ⟨b', hb', fun x => ?_⟩
    rw [hs x (chosen f (getBounds f).2 i x) (fun v j hv => chosen_spec f _ h2.ge i x v j hv)]
    apply BDD.eval_congr
    intro v hv
    have hm : (i, v) ∈ supportPositions f := mem_supportPositions.mpr ⟨b, hb, hv⟩
    obtain ⟨j, hj⟩ := List.mem_iff_getElem?.mp hm
    obtain ⟨q, hq, hc⟩ := chosen_spec f (getBounds f).2 h2.ge i x v j hj
    rw [up j q hq] at hc
    rw [hc, picked]
    norm_num

/-- For constant functions there is nothing to choose from: modulo zero. -/
theorem C82_population_constant (f : List (BDD m)) (rs : Nat → Nat) (c p k : Nat)
    (h : ∀ b ∈ f, b.supportIndices = []) : makePopulation f rs (c + 1) (p + 1) k = .error .ub := by
  have h0 : supportPositions f = [] := by
    rw [List.eq_nil_iff_forall_not_mem]
    rintro ⟨i, v⟩ hv
    obtain ⟨b, hb, hv⟩ := mem_supportPositions.mp hv
    rw [h b (List.mem_of_getElem? hb)] at hv
    simp at hv
  rw [makePopulation]
  simp only [getBounds, h0, List.length_nil, List.replicate_zero, initLoop_ub, bind, Except.bind]

example : supportPositions [(BDD.var 1 : BDD .id).and (.var 0), .var 2] = [(0, 0), (0, 1), (1, 2)] := by decide +kernel
example : (functionFromIndividuum [(BDD.var 1 : BDD .id).and (.var 0), .var 2] [2, 0, 1]).toOption =
    some [.var 1, .zero] := by decide +kernel
example : (makePopulation [(BDD.var 1 : BDD .id).and (.var 0)] (fun k => k) 2 1 0).toOption = some [[0, 1]] := by
  decide +kernel

/-! ## C83 fitness -/

/-- An individual smaller than the original and within the limits has its figures as fitness. -/
theorem C83_admissible (pr : MinProblem m) (params : List ℚ) (N : Nat) (hf : Fits N pr.original)
    (hN : N ≤ 1024) (hb : pr.erAndAce = true → pr.original.length + 1 + N ≤ 256)
    (hl : (supportPositions pr.original).length ≤ params.length) (h0 : 0 ≤ pr.maxAce) (g : List (BDD m))
    (hg : functionFromIndividuum pr.original params = .ok g) (hlt : nodeCount g < nodeCount pr.original)
    (her : mean N (fun x => if bitsAt pr.original x = bitsAt g x then 0 else 1) ≤ pr.maxErrorRate)
    (hace : pr.erAndAce = true → mean N (absErrAt pr.original g) ≤ pr.maxAce) :
    fitness pr params = .ok (if pr.erAndAce then
      [(nodeCount g : ℚ), mean N (fun x => if bitsAt pr.original x = bitsAt g x then 0 else 1),
        mean N (absErrAt pr.original g)]
      else [(nodeCount g : ℚ), mean N (fun x => if bitsAt pr.original x = bitsAt g x then 0 else 1)]) := by
  obtain ⟨g', h1, -, h⟩ := fitness_spec pr params N hf hN hb hl
  rw [hg] at h1
  obtain rfl := Except.ok.inj h1
  rcases h with ⟨h, -⟩ | ⟨-, er, ace, he, h⟩
  · omega
  · have hp : punish pr (nodeCount g) er ace = nodeCount g := by
      have e1 : ¬ er > pr.maxErrorRate := by rw [he.rate]; linarith
      have e2 : ¬ ace > pr.maxAce := by
        cases hb' : pr.erAndAce with
        | true => rw [he.avg hb']; have := hace hb'; linarith
        | false => rw [he.zero hb']; linarith
      rw [punish, if_neg e1, if_neg e2]
    rw [h, hp, ← he.rate]
    apply congrArg Except.ok
    cases hb' : pr.erAndAce with
    | true => simp [he.avg hb']
    | false => rfl

/-- An individual that is not smaller gets the largest values, the original function itself included. -/
theorem C83_not_smaller (pr : MinProblem m) (params : List ℚ) (g : List (BDD m))
    (hg : functionFromIndividuum pr.original params = .ok g) (hge : nodeCount pr.original ≤ nodeCount g) :
    fitness pr params = .ok (if pr.erAndAce then [5 * (nodeCount g : ℚ), 100, 2 * pr.maxAce]
      else [5 * (nodeCount g : ℚ), 100]) := by
  rw [fitness]
  simp only [hg, bind, Except.bind]
  rw [if_pos (by exact_mod_cast hge), mul_comm, mul_comm pr.maxAce]

theorem C83_original_punished (pr : MinProblem m) :
    fitness pr (getBounds pr.original).1 = .ok (if pr.erAndAce then
      [5 * (nodeCount pr.original : ℚ), 100, 2 * pr.maxAce] else [5 * (nodeCount pr.original : ℚ), 100]) :=
  C83_not_smaller pr _ _ (C82_default _) (le_refl _)

/-- As many values as `get_nobj` says. -/
theorem C83_nobj (pr : MinProblem m) (params : List ℚ) (fit : List ℚ) (h : fitness pr params = .ok fit) :
    fit.length = getNobj pr := by
  rw [fitness] at h
  simp only [bind, Except.bind] at h
  split at h
  · simp at h
  · split at h
    · obtain rfl := Except.ok.inj h
      rw [getNobj]; split <;> rfl
    · split at h
      · simp at h
      · obtain rfl := Except.ok.inj h
        rw [getNobj]; split <;> rfl

/-- `a` is at least as good in every objective, and better in one. -/
def Dominates (a b : List ℚ) : Prop :=
  a.length = b.length ∧ (∀ (i : Nat) (p q : ℚ), a[i]? = some p → b[i]? = some q → p ≤ q) ∧
    ∃ (i : Nat) (p q : ℚ), a[i]? = some p ∧ b[i]? = some q ∧ p < q

/-- The punishment does its job: an individual that is too large or exceeds a limit never dominates one that
is smaller than the original and within the limits. -/
theorem C83_no_domination (pr : MinProblem m) (N : Nat) (hf : Fits N pr.original)
    (hN : N ≤ 1024) (hb : pr.erAndAce = true → pr.original.length + 1 + N ≤ 256)
    (h0 : 0 ≤ pr.maxAce) (hs : pr.maxErrorRate < 100)
    (good bad : List ℚ) (hl : (supportPositions pr.original).length ≤ good.length)
    (hl' : (supportPositions pr.original).length ≤ bad.length) (g h : List (BDD m))
    (hg : functionFromIndividuum pr.original good = .ok g) (hh : functionFromIndividuum pr.original bad = .ok h)
    (hlt : nodeCount g < nodeCount pr.original)
    (her : mean N (fun x => if bitsAt pr.original x = bitsAt g x then 0 else 1) ≤ pr.maxErrorRate)
    (hace : pr.erAndAce = true → mean N (absErrAt pr.original g) ≤ pr.maxAce)
    (hbad : nodeCount pr.original ≤ nodeCount h ∨
      pr.maxErrorRate < mean N (fun x => if bitsAt pr.original x = bitsAt h x then 0 else 1) ∨
      pr.erAndAce = true ∧ pr.maxAce < mean N (absErrAt pr.original h)) :
    ∃ a b, fitness pr bad = .ok a ∧ fitness pr good = .ok b ∧ ¬ Dominates a b := by
  obtain ⟨h', h1, -, hc⟩ := fitness_spec pr bad N hf hN hb hl'
  rw [hh] at h1
  obtain rfl := Except.ok.inj h1
  have hgood := C83_admissible pr good N hf hN hb hl h0 g hg hlt her hace
  rcases hc with ⟨h2, h3⟩ | ⟨h2, er, ace, he, h3⟩
  · refine ⟨_, _, h3, hgood, fun hd => ?_⟩
    have := hd.2.1 1 100 (mean N (fun x => if bitsAt pr.original x = bitsAt g x then 0 else 1))
      (by split <;> rfl) (by split <;> rfl)
    linarith
  · refine ⟨_, _, h3, hgood, fun hd => ?_⟩
    rcases hbad with hbad | hbad | hbad
    · omega
    · have := hd.2.1 1 er (mean N (fun x => if bitsAt pr.original x = bitsAt g x then 0 else 1))
        (by split <;> rfl) (by split <;> rfl)
      rw [he.rate] at this
      linarith
    · have := hd.2.1 2 ace (mean N (absErrAt pr.original g))
        (by rw [if_pos hbad.1]; rfl) (by rw [if_pos hbad.1]; rfl)
      rw [he.avg hbad.1] at this
      have := hace hbad.1
      linarith [hbad.2]

/-- An individual that exceeds a limit has at least 50 times as many nodes in its fitness as it has, and 100 times if
it is the average error; exceeding both multiplies. -/
theorem C83_punished (pr : MinProblem m) (params : List ℚ) (N : Nat) (hf : Fits N pr.original)
    (hN : N ≤ 1024) (hb : pr.erAndAce = true → pr.original.length + 1 + N ≤ 256)
    (hl : (supportPositions pr.original).length ≤ params.length) (g : List (BDD m))
    (hg : functionFromIndividuum pr.original params = .ok g) (hlt : nodeCount g < nodeCount pr.original) :
    ∃ a fit, fitness pr params = .ok (a :: fit) ∧
      (pr.maxErrorRate < mean N (fun x => if bitsAt pr.original x = bitsAt g x then 0 else 1) →
        50 * (nodeCount g : ℚ) ≤ a) ∧
      (pr.erAndAce = true → pr.maxAce < mean N (absErrAt pr.original g) → 100 * (nodeCount g : ℚ) ≤ a) ∧
      (pr.erAndAce = true → pr.maxErrorRate < mean N (fun x => if bitsAt pr.original x = bitsAt g x then 0 else 1) →
        pr.maxAce < mean N (absErrAt pr.original g) → 5000 * (nodeCount g : ℚ) ≤ a) := by
  obtain ⟨g', h1, -, h⟩ := fitness_spec pr params N hf hN hb hl
  rw [hg] at h1
  obtain rfl := Except.ok.inj h1
  rcases h with ⟨h, -⟩ | ⟨-, er, ace, he, h⟩
  · omega
  · have hn : (0 : ℚ) ≤ nodeCount g := by positivity
    have he0 := he.rate0
    have ha0 := he.avg0
    refine ⟨punish pr (nodeCount g) er ace, if pr.erAndAce then [er, ace] else [er], by rw [h]; split <;> rfl, ?_, ?_, ?_⟩
    · intro hx
      rw [← he.rate] at hx
      rw [punish, if_pos hx]
      have h2 : 50 * (nodeCount g : ℚ) ≤ nodeCount g * (er * 10000 + 50) := by nlinarith
      split
      · nlinarith
      · exact h2
    · intro hb' hx
      rw [← he.avg hb'] at hx
      rw [punish]
      rw [if_pos hx]
      have h2 : (nodeCount g : ℚ) ≤ if er > pr.maxErrorRate then nodeCount g * (er * 10000 + 50) else nodeCount g := by
        split
        · nlinarith
        · exact le_rfl
      nlinarith
    · intro hb' hx hy
      rw [← he.rate] at hx
      rw [← he.avg hb'] at hy
      rw [punish, if_pos hx]
      rw [if_pos hy]
      have h2 : 50 * (nodeCount g : ℚ) ≤ nodeCount g * (er * 10000 + 50) := by nlinarith
      nlinarith

/-- Both limits are exceeded: one node, error rate and average error 1/4. -/
example : functionFromIndividuum [(BDD.var 0 : BDD Mgr.id).and (.var 1)] [1, 0] = .ok [.zero] ∧
    nodeCount [(BDD.zero : BDD Mgr.id)] = 1 ∧ nodeCount [(BDD.var 0 : BDD Mgr.id).and (.var 1)] = 3 ∧
    (fitness ⟨[(BDD.var 0 : BDD Mgr.id).and (.var 1)], 0, 0, true⟩ [1, 0]).toOption =
      some [2550 * (100 + 1 / 4), 1 / 4, 1 / 4] := by
  refine ⟨?_, by decide +kernel, by decide +kernel, by decide +kernel⟩
  have : (functionFromIndividuum [(BDD.var 0 : BDD Mgr.id).and (.var 1)] [1, 0]).toOption = some [.zero] := by
    decide +kernel
  cases h : functionFromIndividuum [(BDD.var 0 : BDD Mgr.id).and (.var 1)] [1, 0] with
  | error e => rw [h] at this; simp [Except.toOption] at this
  | ok r => rw [h] at this; simpa [Except.toOption] using this

/-- The conjunction of the first `n` variables -/
def allOf (n : Nat) : BDD Mgr.id := (List.range n).foldr (fun v b => (BDD.var v).and b) .one

/-- Two conjunctions, with a limit of `2^-60` for the error rate -/
def twoCubes : MinProblem Mgr.id := ⟨[allOf 59, allOf 60], 1 / 2 ^ 60, 1, false⟩

/-- The multipliers do matter for the first objective: an individual that exceeds the limit can come out
smaller there than one within the limits. -/
theorem C83_multipliers_matter : ∃ (pr : MinProblem Mgr.id) (good bad : List ℚ) (a b p q : ℚ),
    (fitness pr good).toOption = some [a, p] ∧ (fitness pr bad).toOption = some [b, q] ∧
    p ≤ pr.maxErrorRate ∧ pr.maxErrorRate < q ∧ b < a := by
  refine ⟨twoCubes, List.replicate 59 0 ++ 1 :: List.replicate 59 0,
    1 :: List.replicate 58 0 ++ 1 :: List.replicate 59 0, 60, 50 + 10000 / 2 ^ 59, 1 / 2 ^ 60, 1 / 2 ^ 59, ?_, ?_, ?_, ?_, ?_⟩
  · decide +kernel
  · decide +kernel
  · decide +kernel
  · decide +kernel
  · norm_num

example : (fitness ⟨[(BDD.var 0 : BDD .id).and (.var 1)], 1 / 2, 1, false⟩ [0, 1]).toOption = some [1, 1 / 4] := by
  decide +kernel
example : (fitness ⟨[(BDD.var 0 : BDD .id).and (.var 1)], 1 / 8, 1, true⟩ [0, 1]).toOption =
    some [2550, 1 / 4, 1 / 4] := by decide +kernel

/-! ## C84 `run_genetic_minimization` -/

/-- Whatever populations the genetic algorithm produces, the search stops after at most one round more than
the original has nodes, and reports `2^64 - 1` nodes if no individual of the rounds was smaller than the
original with errors below the limits.  Otherwise the figures are the true ones of such an individual, and
none of them has fewer nodes.  `fl` is the conversion to `float`; it must not round the limits down. -/
theorem C84_result_partial (fl : ℚ → ℚ) (f : List (BDD m)) (maxEr maxAce : ℚ) (both : Bool)
    (pops : Nat → List (List ℚ)) (N fuel : Nat) (hf : Fits N f) (hN : N ≤ 1024)
    (hb : both = true → f.length + 1 + N ≤ 256) (hpops : ∀ k, ∀ ind ∈ pops k, (supportPositions f).length ≤ ind.length)
    (h100 : maxEr ≤ 100) (hfl : maxEr ≤ fl maxEr) (hfl' : maxAce ≤ fl maxAce) (h0 : 0 ≤ maxAce)
    (hfuel : nodeCount f < fuel) :
    ∃ res K, runGenetic fl f maxEr maxAce both pops fuel = .ok res ∧ 1 ≤ K ∧ K ≤ nodeCount f + 1 ∧
      ((res.nodeCount = 2 ^ 64 - 1 ∧ res.errorRate = 0 ∧ res.ace = 0) ∨
        ∃ k, k < K ∧ ∃ ind ∈ pops k, ∃ g, functionFromIndividuum f ind = .ok g ∧ nodeCount g < nodeCount f ∧
          res.nodeCount = nodeCount g ∧
          res.errorRate = mean N (fun x => if bitsAt f x = bitsAt g x then 0 else 1) ∧ res.errorRate < maxEr ∧
          (both = true → res.ace = mean N (absErrAt f g) ∧ res.ace < maxAce) ∧ (both = false → res.ace = 0)) ∧
      ∀ k, k < K → ∀ ind ∈ pops k, ∀ g, functionFromIndividuum f ind = .ok g → nodeCount g < nodeCount f →
        mean N (fun x => if bitsAt f x = bitsAt g x then 0 else 1) < maxEr →
        (both = true → mean N (absErrAt f g) < maxAce) → res.nodeCount ≤ nodeCount g := by
  have hr : GoodRun N (⟨f, fl maxEr, fl maxAce, both⟩ : MinProblem m) maxEr maxAce :=
    ⟨hf, hN, hb, h100, hfl, fun _ => hfl', fun _ => le_trans h0 hfl'⟩
  obtain ⟨res, K, h1, h2, h3, h4, h5, -⟩ := geneticLoop_spec hr pops hpops (nodeCount f + 1) 0 noResult
    (.inr (Nat.lt_succ_self _)) (by simp [noResult]) (.inl rfl) (fun j hj => by omega)
  refine ⟨res, K, geneticLoop_mono _ _ _ _ _ _ _ _ _ (by omega) h1, by omega, by omega, ?_, ?_⟩
  · rcases h4 with rfl | ⟨ind, g, er, ace, ⟨k, hk, hi⟩, hF, rfl⟩
    · exact .inl ⟨rfl, rfl, rfl⟩
    · refine .inr ⟨k, hk, ind, hi, g, hF.fn, hF.less, rfl, hF.errors.rate, hF.erLt, fun hb => ?_, fun hb => ?_⟩
      · simp only [hb, if_true]
        exact ⟨hF.errors.avg hb, hF.aceLt hb⟩
      · simp [hb]
  · intro k hk ind hi g hg hlt her hace
    obtain ⟨er, ace, -, he⟩ := individuumErrors_spec both f g N
      (by obtain ⟨g', e1, e2, -⟩ := functionFromIndividuum_spec f ind (hpops k ind hi)
          rw [hg] at e1; obtain rfl := Except.ok.inj e1; exact e2.symm)
      hf (functionFromIndividuum_fits (hpops k ind hi) hg hf) hN hb
    exact h5 k hk ind hi g er ace ⟨hg, hlt, he, by rw [he.rate]; exact her,
      fun hb => by rw [he.avg hb]; exact hace hb⟩

/-- The search stops for any limits and any rounding of them. -/
theorem C84_terminates (fl : ℚ → ℚ) (f : List (BDD m)) (maxEr maxAce : ℚ) (both : Bool)
    (pops : Nat → List (List ℚ)) (N : Nat) (hf : Fits N f) (hN : N ≤ 1024)
    (hb : both = true → f.length + 1 + N ≤ 256)
    (hpops : ∀ k, ∀ ind ∈ pops k, (supportPositions f).length ≤ ind.length) :
    ∃ res, runGenetic fl f maxEr maxAce both pops (2 ^ 64) = .ok res :=
  geneticLoop_terminates ⟨f, fl maxEr, fl maxAce, both⟩ maxEr maxAce pops
    (fun k ind hi => fitness_shape ⟨f, fl maxEr, fl maxAce, both⟩ ind N hf hN hb (hpops k ind hi)) _ _ _ (by
      rw [noResult]; norm_num)

/-- `x0 x1` or the conjunction of the variables 2 to 28 -/
def nearQuarter : BDD Mgr.id :=
  ((BDD.var 0).and (.var 1)).or ((List.range 27).foldr (fun v b => (BDD.var (v + 2)).and b) .one)

/-- Rounding to the nearest multiple of `2^-25`: the conversion to `float` between 1/4 and 1/2 -/
def floatQuarter (q : ℚ) : ℚ := ⌊q * 2 ^ 25 + 1 / 2⌋ / 2 ^ 25

/-- Counterexample for a limit that the conversion to `float` rounds down: an error rate between the two
limits is punished and then accepted, and the reported number of nodes is 2550 instead of 1. -/
theorem C84_float_false : ∃ (f : List (BDD Mgr.id)) (g : List (BDD Mgr.id)) (maxEr : ℚ) (ind : List ℚ)
    (res : GeneticResult),
    (runGenetic floatQuarter f maxEr 1 false (fun _ => [ind]) 3).toOption = some res ∧
    (functionFromIndividuum f ind).toOption = some g ∧ nodeCount g = 1 ∧ res.nodeCount = 2550 ∧
    res.errorRate < maxEr ∧ |floatQuarter maxEr - maxEr| ≤ 1 / 2 ^ 26 := by
  refine ⟨[nearQuarter], [.zero], 1 / 4 + 1 / 2 ^ 27, 1 :: 0 :: 1 :: List.replicate 26 0,
    ⟨2550, 1 / 4 + 3 / 2 ^ 29, 0⟩, ?_, ?_, ?_, ?_, ?_, ?_⟩
  · decide +kernel
  · decide +kernel
  · decide +kernel
  · rfl
  · norm_num
  · decide +kernel

example : (runGenetic id [(BDD.var 0 : BDD .id).and (.var 1)] (1 / 2) 1 true (fun _ => [[0, 0], [0, 1]]) 4).toOption =
    some ⟨1, 1 / 4, 1 / 4⟩ := by decide +kernel
example : (runGenetic id [(BDD.var 0 : BDD .id).and (.var 1)] (1 / 8) 1 false (fun _ => [[0, 0], [0, 1]]) 4).toOption =
    some ⟨2 ^ 64 - 1, 0, 0⟩ := by decide +kernel

end Verif

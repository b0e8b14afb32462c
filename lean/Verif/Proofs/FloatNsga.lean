import Verif.Model.FloatNsga
import Verif.Props.FloatExperiments
import Verif.Proofs.Nsga

/-! # The genetic search on `double`s: lemmas -/

namespace Verif

variable {m : Mgr} {rnd dec cv : ℚ → ℚ}

/-! ### Whole numbers among the `double`s -/

theorem isDouble_floor {q : ℚ} (hq : IsDouble q) (h0 : 0 ≤ q) : IsDouble ((⌊q⌋.toNat : Nat) : ℚ) := by
  obtain ⟨k, e, h1, h2, h3, rfl⟩ := hq
  rcases le_or_gt 0 e with he | he
  · obtain ⟨d, rfl⟩ : ∃ d : ℕ, e = d := ⟨e.toNat, by omega⟩
    have e1 : (k : ℚ) * 2 ^ (d : ℤ) = ((k * 2 ^ d : ℤ) : ℚ) := by push_cast; rw [zpow_natCast]
    have hk : (0 : ℤ) ≤ k * 2 ^ d := by
      have : (0 : ℚ) ≤ ((k * 2 ^ d : ℤ) : ℚ) := e1 ▸ h0
      exact_mod_cast this
    have e2 : ((⌊(k : ℚ) * 2 ^ (d : ℤ)⌋.toNat : Nat) : ℚ) = (k : ℚ) * 2 ^ (d : ℤ) := by
      rw [e1, Int.floor_intCast]
      have := Int.toNat_of_nonneg hk
      exact_mod_cast this
    rw [e2]
    exact ⟨k, d, h1, h2, h3, rfl⟩
  · apply isDouble_nat
    have hk0 : (0 : ℚ) ≤ k := by
      by_contra hc
      have : (k : ℚ) * 2 ^ e < 0 := mul_neg_of_neg_of_pos (not_le.mp hc) (zpow_pos (by norm_num) _)
      linarith
    have hp : (2 : ℚ) ^ e ≤ 1 := zpow_le_one_of_nonpos₀ (by norm_num) he.le
    have hle : (k : ℚ) * 2 ^ e ≤ k := mul_le_of_le_one_right hk0 hp
    have hk : k ≤ 2 ^ 53 := le_trans (le_abs_self k) h1
    have : ⌊(k : ℚ) * 2 ^ e⌋ ≤ k := by
      have := Int.floor_le_floor hle
      rwa [Int.floor_intCast] at this
    omega

/-- There are no `double`s just below `2^64`. -/
theorem double_gap {q : ℚ} (hq : IsDouble q) (h : 2 ^ 64 - 2 ≤ q) : 2 ^ 64 ≤ q := by
  obtain ⟨k, e, h1, h2, h3, rfl⟩ := hq
  have hk : (k : ℚ) ≤ 2 ^ 53 := by
    have : k ≤ 2 ^ 53 := le_trans (le_abs_self k) h1
    exact_mod_cast this
  have he : 11 ≤ e := by
    by_contra hc
    have hp : (2 : ℚ) ^ e ≤ 2 ^ (10 : ℤ) := zpow_le_zpow_right₀ (by norm_num) (by omega)
    have : (k : ℚ) * 2 ^ e ≤ 2 ^ 53 * 2 ^ (10 : ℤ) :=
      mul_le_mul hk hp (zpow_nonneg (by norm_num) _) (by norm_num)
    norm_num at this h
    linarith
  obtain ⟨d, rfl⟩ : ∃ d : ℕ, e = 11 + d := ⟨(e - 11).toNat, by omega⟩
  have e1 : (k : ℚ) * 2 ^ (11 + d : ℤ) = ((k * 2 ^ d : ℤ) : ℚ) * 2048 := by
    rw [zpow_add₀ (by norm_num), zpow_natCast]
    push_cast
    norm_num
    ring
  rw [e1] at h ⊢
  have a1 : (2 : ℤ) ^ 64 - 2 ≤ k * 2 ^ d * 2048 := by exact_mod_cast h
  have a2 : (2 : ℤ) ^ 64 ≤ k * 2 ^ d * 2048 := by omega
  exact_mod_cast a2

/-- The node counts that occur: the initial one or a `double`. -/
def CountOk (n : Nat) : Prop := n = 2 ^ 64 - 1 ∨ IsDouble (n : ℚ) ∧ n < 2 ^ 64

theorem CountOk.compare (hr : Nearest rnd) {n : Nat} (h : CountOk n) {q : ℚ} (hq : IsDouble q) (h0 : 0 ≤ q) :
    (q < rnd n → q < 2 ^ 64 ∧ ⌊q⌋.toNat < n) ∧ (¬ q < rnd n → n ≤ ⌊q⌋.toNat) := by
  have fl : ∀ k : Nat, (k : ℚ) ≤ q → k ≤ ⌊q⌋.toNat := fun k hk => by
    have : (k : ℤ) ≤ ⌊q⌋ := Int.le_floor.mpr (by exact_mod_cast hk)
    omega
  have fl' : ∀ k : Nat, q < k → ⌊q⌋.toNat < k := fun k hk => by
    have h1 : ⌊q⌋ < (k : ℤ) := Int.floor_lt.mpr (by exact_mod_cast hk)
    have h2 : 0 ≤ ⌊q⌋ := Int.floor_nonneg.mpr h0
    omega
  rcases h with rfl | ⟨h1, h2⟩
  · have hb : |((2 ^ 64 - 1 : Nat) : ℚ)| ≤ 2 ^ 1023 := by
      rw [abs_of_nonneg (by positivity)]
      exact le_trans (by norm_num) (pow_le_big (show 64 ≤ 1023 by norm_num))
    have d64 : IsDouble ((2 : ℚ) ^ 64) := isDouble_two_pow (by norm_num)
    have hn := hr.near _ _ hb d64
    have hle := hr.rnd_le hb d64 (by norm_num)
    have hge : (2 : ℚ) ^ 64 - 2 ≤ rnd ((2 ^ 64 - 1 : Nat) : ℚ) := by
      have e : |(2 : ℚ) ^ 64 - ((2 ^ 64 - 1 : Nat) : ℚ)| = 1 := by norm_num
      rw [e] at hn
      have := (abs_le.mp hn).1
      have e' : ((2 ^ 64 - 1 : Nat) : ℚ) = 2 ^ 64 - 1 := by norm_num
      rw [e'] at this ⊢
      linarith
    have e : rnd ((2 ^ 64 - 1 : Nat) : ℚ) = 2 ^ 64 := le_antisymm hle (double_gap (hr.isDouble _ hb) hge)
    rw [e]
    refine ⟨fun h => ⟨h, fl' _ ?_⟩, fun h => fl _ ((le_of_eq_of_le ?_ (sub_le_self _ zero_le_one)).trans (not_lt.mp h))⟩
    · by_contra hc
      have : (2 : ℚ) ^ 64 ≤ q := double_gap hq (by
        have := not_lt.mp hc
        norm_num at this ⊢
        linarith)
      linarith
    · norm_num
  · have e : rnd (n : ℚ) = n := hr.exact h1 (by
      rw [abs_of_nonneg (by positivity)]
      have : (n : ℚ) < 2 ^ 64 := by exact_mod_cast h2
      exact this.le.trans (pow_le_big (by norm_num)))
    rw [e]
    have h2' : (n : ℚ) < 2 ^ 64 := by exact_mod_cast h2
    exact ⟨fun h => ⟨h.trans h2', fl' _ h⟩, fun h => fl _ (not_lt.mp h)⟩

/-! ### Errors of an individual -/

theorem individuumErrorsF_spec (hr : Nearest rnd) (hd : Dec100 dec) (hc : DecToDouble rnd cv) (both : Bool)
    (f g : List (BDD m)) (N : Nat) (hl : f.length = g.length) (hf : Fits N f) (hg : Fits N g) (hN : N ≤ 1000)
    (hb : both = true → f.length + 1 + N ≤ 256) (hne : f ≠ []) :
    ∃ er ace, individuumErrorsF rnd dec cv both f g = .ok (er, ace) ∧ NearErrors N both f g er ace := by
  obtain ⟨q, hq, -, h0, h1, h2, h3, -⟩ := C98_error_rate hr f g N hl hf hg hN _ rfl
  rw [individuumErrorsF]
  cases both with
  | false =>
      refine ⟨q, 0, by simp [hq, bind, Except.bind], h2, h3, h0, h1, by simp, by simp, le_refl _, ?_, fun _ => rfl⟩
      exact pow_nonneg (by norm_num) _
  | true =>
      have hb' := hb rfl
      obtain ⟨a, e, ha, hm, ha0, ha1⟩ := C110_metric_near hr hd hc N f g hl hf hg .averageCase (by simp) hN (by omega) hb'
      have hm' : e = mean N (absErrAt f g) := hm
      have hcap : e ≤ 2 ^ f.length := (isMetric_range hl (by decide) hm).2
      have he0 : 0 ≤ e := (isMetric_range hl (by decide) hm).1
      have hex : N + f.length ≤ 53 → a = e := fun hs => by
        have h4 := C110_metric_exact hr hd hc N f g hl hf hg hne hs .averageCase (by simp)
        obtain ⟨e', he', hme⟩ := C75_metric_function_partial N f g .averageCase hl hf hg hb' (by decide)
        have : e' = mean N (absErrAt f g) := hme
        rw [ha, he'] at h4
        rw [Except.ok.inj h4, this, hm']
      simp only [metricFunctionF] at ha
      obtain ⟨v, hv, hcv⟩ := bind_ok ha
      have hcv' := Except.ok.inj hcv
      refine ⟨q, cv v, ?_, h2, h3, h0, h1, fun _ => ?_, fun _ => ?_, ?_, ?_, by simp⟩
      · simp only [hq, bind, Except.bind, if_true, hv]
      · rw [hcv', ← hm']; exact ha1
      · rw [hcv', ← hm']; exact hex
      · rw [hcv']; exact ha0
      · rw [hcv']
        have hsmall : ((N : ℚ) + f.length + 2) / 2 ^ 52 ≤ 1 := by
          rw [div_le_one (by norm_num)]
          have : ((N + f.length + 2 : Nat) : ℚ) ≤ ((2 ^ 52 : Nat) : ℚ) := by exact_mod_cast (by omega)
          push_cast at this
          exact this
        have h5 := (abs_le.mp ha1).2
        have h6 := mul_le_mul_of_nonneg_right hsmall he0
        calc a ≤ e * 2 := by linarith only [h5, h6]
          _ ≤ 2 ^ f.length * 2 := mul_le_mul_of_nonneg_right hcap (by norm_num)
          _ = 2 ^ (f.length + 1) := (pow_succ _ _).symm
          _ ≤ 2 ^ 300 := pow_le_big (by omega)

/-! ### The punished count -/

theorem punishF_keep {pr : MinProblem m} {er ace : ℚ} (h1 : er ≤ pr.maxErrorRate) (h2 : ace ≤ pr.maxAce) (n : ℚ) :
    punishF rnd pr n er ace = n := by
  rw [punishF, if_neg (not_lt.mpr h1), if_neg (not_lt.mpr h2)]

/-- `a * r` rounded, for `a` at least `b` and `r` at least 1. -/
theorem rnd_mul_ge (hr : Nearest rnd) {a r b : ℚ} (ha0 : 0 ≤ a) (ha : a ≤ 2 ^ 400) (hr0 : 0 ≤ r) (hr1 : r ≤ 2 ^ 400)
    (hb : IsDouble b) (hle : b ≤ a * r) : b ≤ rnd (a * r) ∧ IsDouble (rnd (a * r)) ∧ rnd (a * r) ≤ 2 ^ 800 := by
  have h0 : 0 ≤ a * r := mul_nonneg ha0 hr0
  have h1 : a * r ≤ 2 ^ 800 := by
    rw [show (800 : ℕ) = 400 + 400 from rfl, pow_add]
    exact mul_le_mul ha hr1 hr0 (pow_nonneg (by norm_num) _)
  have habs : |a * r| ≤ 2 ^ 1023 := by
    rw [abs_of_nonneg h0]
    exact h1.trans (pow_le_big (by norm_num))
  exact ⟨hr.le_rnd habs hb hle, hr.isDouble _ habs, hr.rnd_le habs (isDouble_two_pow (by norm_num)) h1⟩

theorem punishF_ge (hr : Nearest rnd) (pr : MinProblem m) {er ace : ℚ} (n : Nat) (hn : n < 2 ^ 31) (he0 : 0 ≤ er)
    (he1 : er ≤ 1) (ha0 : 0 ≤ ace) (ha1 : ace ≤ 2 ^ 300) :
    (n : ℚ) ≤ punishF rnd pr n er ace ∧ IsDouble (punishF rnd pr n er ace) ∧
      (pr.maxErrorRate < er ∨ pr.maxAce < ace → (50 : ℚ) * n ≤ punishF rnd pr n er ace) := by
  have hn0 : (0 : ℚ) ≤ n := Nat.cast_nonneg n
  have hnq : (n : ℚ) ≤ 2 ^ 31 := by exact_mod_cast hn.le
  have dn : IsDouble (n : ℚ) := isDouble_nat n (by omega)
  have d50 : IsDouble ((50 : ℚ) * n) := by
    have := isDouble_nat (50 * n) (by omega)
    push_cast at this
    exact this
  have big : ∀ {q : ℚ} {k : ℕ}, 0 ≤ q → q ≤ 2 ^ k → k ≤ 1023 → |q| ≤ 2 ^ 1023 := fun h0 h1 hk => by
    rw [abs_of_nonneg h0]
    exact h1.trans (pow_le_big hk)
  -- the first factor
  obtain ⟨r, hrd, r1, r2⟩ : ∃ r, r = rnd (rnd (er * 10000) + 50) ∧ 50 ≤ r ∧ r ≤ 2 ^ 16 := by
    refine ⟨_, rfl, ?_⟩
    have h1 : 0 ≤ er * 10000 := by linarith
    have h2 : er * 10000 ≤ 2 ^ 14 := by norm_num; linarith
    have h3 := hr.nonneg h1 (h2.trans (pow_le_big (by norm_num)))
    have h4 := hr.rnd_le (big h1 h2 (by norm_num)) (isDouble_two_pow (by norm_num)) h2
    have h5 : 0 ≤ rnd (er * 10000) + 50 := by linarith
    have h6 : rnd (er * 10000) + 50 ≤ 2 ^ 16 := by norm_num at h4 ⊢; linarith
    exact ⟨hr.le_rnd (big h5 h6 (by norm_num)) (isDouble_nat 50 (by norm_num)) (by push_cast; linarith),
      hr.rnd_le (big h5 h6 (by norm_num)) (isDouble_two_pow (by norm_num)) h6⟩
  obtain ⟨x, hx, x1, x2, x3, x4⟩ : ∃ x, x = (if er > pr.maxErrorRate then rnd (n * rnd (rnd (er * 10000) + 50)) else (n : ℚ)) ∧
      (n : ℚ) ≤ x ∧ IsDouble x ∧ x ≤ 2 ^ 400 ∧ (pr.maxErrorRate < er → (50 : ℚ) * n ≤ x) := by
    refine ⟨_, rfl, ?_⟩
    rw [← hrd]
    by_cases h : er > pr.maxErrorRate
    · rw [if_pos h]
      have hle : (50 : ℚ) * n ≤ n * r := by
        rw [mul_comm]
        exact mul_le_mul_of_nonneg_left r1 hn0
      obtain ⟨g1, g2, -⟩ := rnd_mul_ge hr (a := n) (r := r) hn0 (hnq.trans (pow_le_big (by norm_num))) (by linarith)
        (r2.trans (pow_le_big (by norm_num))) d50 hle
      have h0 : (0 : ℚ) ≤ n * r := mul_nonneg hn0 (by linarith)
      have h1 : (n : ℚ) * r ≤ 2 ^ 47 := by
        rw [show (47 : ℕ) = 31 + 16 from rfl, pow_add]
        exact mul_le_mul hnq r2 (by linarith) (by norm_num)
      have := hr.rnd_le (big h0 h1 (by norm_num)) (isDouble_two_pow (by norm_num)) h1
      exact ⟨by linarith, g2, this.trans (pow_le_big (by norm_num)), fun _ => g1⟩
    · rw [if_neg h]
      exact ⟨le_refl _, dn, hnq.trans (pow_le_big (by norm_num)), fun h' => absurd h' h⟩
  rw [punishF]
  simp only [← hx]
  by_cases h : ace > pr.maxAce
  · rw [if_pos h]
    have h1 : 0 ≤ 100 + ace := by linarith
    have h2 : 100 + ace ≤ 2 ^ 301 := by
      have e : (2 : ℚ) ^ 301 = 2 ^ 300 + 2 ^ 300 := by rw [pow_succ]; ring
      have h100 : (100 : ℚ) ≤ 2 ^ 300 := le_trans (by norm_num) (pow_le_big (show 7 ≤ 300 by norm_num))
      rw [e]
      exact add_le_add h100 ha1
    have s1 : (100 : ℚ) ≤ rnd (100 + ace) := by
      have := hr.le_rnd (big h1 h2 (by norm_num)) (isDouble_nat 100 (by norm_num)) (by push_cast; linarith)
      exact_mod_cast this
    have s2 := hr.rnd_le (big h1 h2 (by norm_num)) (isDouble_two_pow (by norm_num)) h2
    have x0 : 0 ≤ x := hn0.trans x1
    have s3 : x * 100 ≤ x * rnd (100 + ace) := mul_le_mul_of_nonneg_left s1 x0
    have s0 : (0 : ℚ) ≤ rnd (100 + ace) := by linarith only [s1]
    obtain ⟨g1, g2, -⟩ := rnd_mul_ge hr x0 x3 s0 (s2.trans (pow_le_big (by norm_num))) x2 (by linarith only [s3, x0])
    obtain ⟨g3, -, -⟩ := rnd_mul_ge hr x0 x3 s0 (s2.trans (pow_le_big (by norm_num))) d50 (by linarith only [s3, x0, x1])
    exact ⟨x1.trans g1, g2, fun _ => g3⟩
  · rw [if_neg h]
    exact ⟨x1, x2, fun h' => h'.elim x4 (fun h' => absurd h' h)⟩

/-! ### The loops -/

/-- What the loops need to know about the problem. -/
structure GoodRunF (N : Nat) (pr : MinProblem m) (maxEr : ℚ) : Prop where
  fits : Fits N pr.original
  vars : N ≤ 1000
  both : pr.erAndAce = true → pr.original.length + 1 + N ≤ 256
  ne : pr.original ≠ []
  er100 : maxEr ≤ 100
  size : nodeCount pr.original < 2 ^ 31

/-- An individuum smaller than the original whose computed errors are below the limits. -/
structure FoundF (rnd dec cv : ℚ → ℚ) (pr : MinProblem m) (maxEr maxAce : ℚ) (ind : List ℚ) (g : List (BDD m))
    (er ace : ℚ) : Prop where
  fn : functionFromIndividuum pr.original ind = .ok g
  less : nodeCount g < nodeCount pr.original
  errors : individuumErrorsF rnd dec cv pr.erAndAce pr.original g = .ok (er, ace)
  erLt : er < maxEr
  aceLt : pr.erAndAce = true → ace < maxAce

/-- The count reported for an individuum. -/
def valF (rnd : ℚ → ℚ) (pr : MinProblem m) (g : List (BDD m)) (er ace : ℚ) : Nat :=
  ⌊punishF rnd pr (nodeCount g) er ace⌋.toNat

/-- One individuum: the result is kept, or replaced by the figures of an admissible individuum. -/
theorem scanF_one (hr : Nearest rnd) (hd : Dec100 dec) (hc : DecToDouble rnd cv) {N : Nat} {pr : MinProblem m}
    {maxEr maxAce : ℚ} (hg : GoodRunF N pr maxEr) (ind : List ℚ)
    (hl : (supportPositions pr.original).length ≤ ind.length) (best : GeneticResult) (hbest : CountOk best.nodeCount) :
    (∃ g er ace, FoundF rnd dec cv pr maxEr maxAce ind g er ace ∧ valF rnd pr g er ace < best.nodeCount ∧
      CountOk (valF rnd pr g er ace) ∧
      ∀ rest, scanPopulationF rnd dec cv pr maxEr maxAce pr.erAndAce (ind :: rest) best =
        scanPopulationF rnd dec cv pr maxEr maxAce pr.erAndAce rest
          ⟨valF rnd pr g er ace, er, if pr.erAndAce then ace else best.ace⟩) ∨
    ((∀ g er ace, FoundF rnd dec cv pr maxEr maxAce ind g er ace → best.nodeCount ≤ valF rnd pr g er ace) ∧
      ∀ rest, scanPopulationF rnd dec cv pr maxEr maxAce pr.erAndAce (ind :: rest) best =
        scanPopulationF rnd dec cv pr maxEr maxAce pr.erAndAce rest best) := by
  obtain ⟨g, h1, h2, -, -⟩ := functionFromIndividuum_spec pr.original ind hl
  by_cases hcnt : nodeCount pr.original ≤ nodeCount g
  · right
    constructor
    · intro g' er ace hF
      have := hF.fn
      rw [h1] at this
      obtain rfl := Except.ok.inj this
      have := hF.less
      omega
    · intro rest
      have h4 : fitnessF rnd dec cv pr ind = .ok (if pr.erAndAce then [rnd ((nodeCount g : ℚ) * 5), 100, pr.maxAce * 2]
          else [rnd ((nodeCount g : ℚ) * 5), 100]) := by
        rw [fitnessF]
        simp only [h1, bind, Except.bind]
        rw [if_pos (by exact_mod_cast hcnt)]
      rw [scanPopulationF]
      simp only [h4, bind, Except.bind]
      have : ¬ (100 : ℚ) < maxEr := by have := hg.er100; linarith
      cases hb : pr.erAndAce <;> simp [acceptableF, vget, bind, Except.bind, this]
  · have hlt := Nat.lt_of_not_le hcnt
    obtain ⟨er, ace, he, hs⟩ := individuumErrorsF_spec hr hd hc pr.erAndAce pr.original g N h2.symm hg.fits
      (functionFromIndividuum_fits hl h1 hg.fits) hg.vars hg.both hg.ne
    obtain ⟨p1, p2, -⟩ := punishF_ge hr pr (nodeCount g) (by have := hg.size; omega) hs.rate0 hs.rate1 hs.avg0 hs.avg1
    have h5 : fitnessF rnd dec cv pr ind = .ok (if pr.erAndAce then [punishF rnd pr (nodeCount g) er ace, er, ace]
        else [punishF rnd pr (nodeCount g) er ace, er]) := by
      rw [fitnessF]
      simp only [h1, bind, Except.bind]
      rw [if_neg (by push Not; exact_mod_cast hlt)]
      simp only [he]
    have same : ∀ g' er' ace', FoundF rnd dec cv pr maxEr maxAce ind g' er' ace' → g' = g ∧ er' = er ∧ ace' = ace := by
      intro g' er' ace' hF
      have e1 := hF.fn
      rw [h1] at e1
      obtain rfl := Except.ok.inj e1
      have e2 := hF.errors
      rw [he] at e2
      cases e2
      exact ⟨rfl, rfl, rfl⟩
    have hp0 : 0 ≤ punishF rnd pr (nodeCount g) er ace := le_trans (by positivity) p1
    obtain ⟨c1, c2⟩ := CountOk.compare hr hbest p2 hp0
    by_cases hF : er < maxEr ∧ (pr.erAndAce = true → ace < maxAce)
    · by_cases hacc : punishF rnd pr (nodeCount g) er ace < rnd best.nodeCount
      · obtain ⟨c3, c4⟩ := c1 hacc
        refine .inl ⟨g, er, ace, ⟨h1, hlt, he, hF.1, hF.2⟩, c4, .inr ⟨isDouble_floor p2 hp0, ?_⟩, fun rest => ?_⟩
        · have h6 : ⌊punishF rnd pr (nodeCount g) er ace⌋ < 2 ^ 64 := Int.floor_lt.mpr (by exact_mod_cast c3)
          have h7 : 0 ≤ ⌊punishF rnd pr (nodeCount g) er ace⌋ := Int.floor_nonneg.mpr hp0
          unfold valF
          omega
        · rw [scanPopulationF]
          simp only [h5, bind, Except.bind]
          have hto := toSizeT_floor hp0 c3
          cases hb : pr.erAndAce with
          | false => simp [acceptableF, takeFitF, vget, bind, Except.bind, hF.1, hacc, hto, valF]
          | true => simp [acceptableF, takeFitF, vget, bind, Except.bind, hF.1, hF.2 hb, hacc, hto, valF]
      · refine .inr ⟨fun g' er' ace' hF2 => ?_, fun rest => ?_⟩
        · obtain ⟨rfl, rfl, rfl⟩ := same g' er' ace' hF2
          exact c2 hacc
        · rw [scanPopulationF]
          simp only [h5, bind, Except.bind]
          cases hb : pr.erAndAce with
          | false => simp [acceptableF, vget, bind, Except.bind, hF.1, hacc]
          | true => simp [acceptableF, vget, bind, Except.bind, hF.1, hF.2 hb, hacc]
    · refine .inr ⟨fun g' er' ace' hF2 => ?_, fun rest => ?_⟩
      · obtain ⟨rfl, rfl, rfl⟩ := same g' er' ace' hF2
        exact absurd ⟨hF2.erLt, hF2.aceLt⟩ hF
      · rw [scanPopulationF]
        simp only [h5, bind, Except.bind]
        cases hb : pr.erAndAce with
        | false =>
            have : ¬ er < maxEr := fun h => hF ⟨h, by simp [hb]⟩
            simp [acceptableF, vget, bind, Except.bind, this]
        | true =>
            by_cases h6 : er < maxEr
            · have : ¬ ace < maxAce := fun h => hF ⟨h6, fun _ => h⟩
              simp [acceptableF, vget, bind, Except.bind, this, h6]
            · simp [acceptableF, vget, bind, Except.bind, h6]

/-- The state of the search: nothing found yet, or the figures of an individuum of `seen`. -/
def BestOkF (rnd dec cv : ℚ → ℚ) (pr : MinProblem m) (maxEr maxAce : ℚ) (seen : List ℚ → Prop)
    (best : GeneticResult) : Prop :=
  best = noResult ∨ ∃ ind g er ace, seen ind ∧ FoundF rnd dec cv pr maxEr maxAce ind g er ace ∧
    best = ⟨valF rnd pr g er ace, er, if pr.erAndAce then ace else 0⟩

theorem BestOkF.ace {pr : MinProblem m} {maxEr maxAce : ℚ} {seen : List ℚ → Prop} {best : GeneticResult}
    (h : BestOkF rnd dec cv pr maxEr maxAce seen best) (hb : pr.erAndAce = false) : best.ace = 0 := by
  rcases h with rfl | ⟨ind, g, er, ace, -, -, rfl⟩
  · rfl
  · simp [hb]

theorem BestOkF.mono {pr : MinProblem m} {maxEr maxAce : ℚ} {s t : List ℚ → Prop} {best : GeneticResult}
    (hst : ∀ i, s i → t i) (h : BestOkF rnd dec cv pr maxEr maxAce s best) :
    BestOkF rnd dec cv pr maxEr maxAce t best := by
  rcases h with h | ⟨ind, g, er, ace, h1, h2⟩
  · exact .inl h
  · exact .inr ⟨ind, g, er, ace, hst _ h1, h2⟩

theorem scanF_spec (hr : Nearest rnd) (hd : Dec100 dec) (hc : DecToDouble rnd cv) {N : Nat} {pr : MinProblem m}
    {maxEr maxAce : ℚ} (hg : GoodRunF N pr maxEr) (seen : List ℚ → Prop) : ∀ (pop : List (List ℚ)) (best : GeneticResult),
    (∀ ind ∈ pop, (supportPositions pr.original).length ≤ ind.length ∧ seen ind) →
    BestOkF rnd dec cv pr maxEr maxAce seen best → CountOk best.nodeCount →
    ∃ best', scanPopulationF rnd dec cv pr maxEr maxAce pr.erAndAce pop best = .ok best' ∧
      BestOkF rnd dec cv pr maxEr maxAce seen best' ∧ CountOk best'.nodeCount ∧ best'.nodeCount ≤ best.nodeCount ∧
      (best' = best ∨ best'.nodeCount < best.nodeCount) ∧
      ∀ ind ∈ pop, ∀ g er ace, FoundF rnd dec cv pr maxEr maxAce ind g er ace → best'.nodeCount ≤ valF rnd pr g er ace
  | [], best, _, hB, hC => ⟨best, rfl, hB, hC, le_refl _, .inl rfl, by simp⟩
  | ind :: rest, best, hp, hB, hC => by
      obtain ⟨hl, hs⟩ := hp ind (by simp)
      have hp' : ∀ ind ∈ rest, (supportPositions pr.original).length ≤ ind.length ∧ seen ind :=
        fun i hi => hp i (by simp [hi])
      rcases scanF_one hr hd hc (maxAce := maxAce) hg ind hl best hC with ⟨g, er, ace, hF, hlt, hC', he⟩ | ⟨hmin, he⟩
      · have hB' : BestOkF rnd dec cv pr maxEr maxAce seen
            ⟨valF rnd pr g er ace, er, if pr.erAndAce then ace else best.ace⟩ := by
          refine .inr ⟨ind, g, er, ace, hs, hF, ?_⟩
          cases hb : pr.erAndAce with
          | false => simp [hB.ace hb]
          | true => rfl
        obtain ⟨best', h1, h2, h2', h3, -, h5⟩ := scanF_spec hr hd hc hg seen rest _ hp' hB' hC'
        dsimp only at h3
        refine ⟨best', by rw [he, h1], h2, h2', by omega, .inr (by omega), fun i hi g' er' ace' hF' => ?_⟩
        rcases List.mem_cons.mp hi with rfl | hi
        · have h6 := hF'.fn
          rw [hF.fn] at h6
          obtain rfl := Except.ok.inj h6
          have h7 := hF'.errors
          rw [hF.errors] at h7
          cases h7
          exact h3
        · exact h5 i hi g' er' ace' hF'
      · obtain ⟨best', h1, h2, h2', h3, h4, h5⟩ := scanF_spec hr hd hc hg seen rest best hp' hB hC
        refine ⟨best', by rw [he, h1], h2, h2', h3, h4, fun i hi g' er' ace' hF' => ?_⟩
        rcases List.mem_cons.mp hi with rfl | hi
        · exact le_trans h3 (hmin g' er' ace' hF')
        · exact h5 i hi g' er' ace' hF'

/-- `B` bounds the counts of all admissible individuals, if there is such a bound. -/
theorem geneticLoopF_spec (hr : Nearest rnd) (hd : Dec100 dec) (hc : DecToDouble rnd cv) {N : Nat} {pr : MinProblem m}
    {maxEr maxAce : ℚ} (hg : GoodRunF N pr maxEr) (pops : Nat → List (List ℚ))
    (hp : ∀ k, ∀ ind ∈ pops k, (supportPositions pr.original).length ≤ ind.length) (B : Nat)
    (hB : B = 2 ^ 64 ∨ ∀ ind g er ace, FoundF rnd dec cv pr maxEr maxAce ind g er ace →
      (supportPositions pr.original).length ≤ ind.length → valF rnd pr g er ace < B) :
    ∀ (fuel k : Nat) (best : GeneticResult),
    (best.nodeCount < fuel ∨ B < fuel) → CountOk best.nodeCount →
    BestOkF rnd dec cv pr maxEr maxAce (fun ind => ∃ j, j < k ∧ ind ∈ pops j) best →
    (∀ j, j < k → ∀ ind ∈ pops j, ∀ g er ace, FoundF rnd dec cv pr maxEr maxAce ind g er ace →
      best.nodeCount ≤ valF rnd pr g er ace) →
    ∃ best' K, geneticLoopF rnd dec cv pr maxEr maxAce pr.erAndAce pops fuel k best = .ok best' ∧ k < K ∧
      K ≤ k + fuel ∧
      BestOkF rnd dec cv pr maxEr maxAce (fun ind => ∃ j, j < K ∧ ind ∈ pops j) best' ∧
      (∀ j, j < K → ∀ ind ∈ pops j, ∀ g er ace, FoundF rnd dec cv pr maxEr maxAce ind g er ace →
        best'.nodeCount ≤ valF rnd pr g er ace)
  | 0, k, best, h, _, _, _ => by omega
  | fuel + 1, k, best, h, hC, hBest, hM => by
      have hmono : ∀ i, (∃ j, j < k ∧ i ∈ pops j) → ∃ j, j < k + 1 ∧ i ∈ pops j :=
        fun i ⟨j, h1, h2⟩ => ⟨j, by omega, h2⟩
      obtain ⟨best', h1, h2, h2', h3, h4, h5⟩ := scanF_spec hr hd hc hg (fun ind => ∃ j, j < k + 1 ∧ ind ∈ pops j)
        (pops k) best (fun ind hi => ⟨hp k ind hi, k, by omega, hi⟩) (hBest.mono hmono) hC
      have hM' : ∀ j, j < k + 1 → ∀ ind ∈ pops j, ∀ g er ace, FoundF rnd dec cv pr maxEr maxAce ind g er ace →
          best'.nodeCount ≤ valF rnd pr g er ace := by
        intro j hj ind hi g er ace hF
        rcases Nat.lt_succ_iff_lt_or_eq.mp hj with hj | rfl
        · exact le_trans h3 (hM j hj ind hi g er ace hF)
        · exact h5 ind hi g er ace hF
      rw [geneticLoopF]
      simp only [h1, bind, Except.bind]
      by_cases he : best'.nodeCount = best.nodeCount
      · rw [if_pos he]
        exact ⟨best', k + 1, rfl, by omega, by omega, h2, hM'⟩
      · rw [if_neg he]
        have hlt : best'.nodeCount < best.nodeCount := lt_of_le_of_ne h3 he
        have h64 : best.nodeCount < 2 ^ 64 := by
          rcases hC with h | h
          · rw [h]; norm_num
          · exact h.2
        have hlt' : best'.nodeCount < B := by
          rcases hB with rfl | hB
          · omega
          · rcases h4 with rfl | -
            · exact absurd rfl he
            · rcases h2 with rfl | ⟨ind, g, er, ace, hseen, hF, rfl⟩
              · simp only [noResult] at hlt; omega
              · obtain ⟨j, -, hj⟩ := hseen
                exact hB ind g er ace hF (hp j ind hj)
        obtain ⟨b, K, g1, g2, g3, g4⟩ := geneticLoopF_spec hr hd hc hg pops hp B hB fuel (k + 1) best' (by omega) h2' h2 hM'
        exact ⟨b, K, g1, by omega, by omega, g4⟩

theorem geneticLoopF_mono (pr : MinProblem m) (maxEr maxAce : ℚ) (both : Bool) (pops : Nat → List (List ℚ))
    {r : GeneticResult} : ∀ (fuel fuel' k : Nat) (best : GeneticResult), fuel ≤ fuel' →
    geneticLoopF rnd dec cv pr maxEr maxAce both pops fuel k best = .ok r →
    geneticLoopF rnd dec cv pr maxEr maxAce both pops fuel' k best = .ok r
  | 0, _, _, _, _, h => by simp [geneticLoopF] at h
  | fuel + 1, 0, _, _, h, _ => by omega
  | fuel + 1, fuel' + 1, k, best, hle, h => by
      rw [geneticLoopF] at h ⊢
      simp only [bind, Except.bind] at h ⊢
      cases hs : scanPopulationF rnd dec cv pr maxEr maxAce both (pops k) best with
      | error e => rw [hs] at h; simp at h
      | ok b =>
          rw [hs] at h
          dsimp only at h ⊢
          by_cases he : b.nodeCount = best.nodeCount
          · rw [if_pos he] at h ⊢; exact h
          · rw [if_neg he] at h ⊢
            exact geneticLoopF_mono pr maxEr maxAce both pops fuel fuel' (k + 1) b (by omega) h

end Verif

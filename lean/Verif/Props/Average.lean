import Verif.Proofs.ErrorRate

/-!
# C31 – C33, C35, C37, C38, C40: average errors, error rates, average bit flips
-/

namespace Verif

variable {m : Mgr}

/-! ## C31 `average_value` -/

/-- `n` bounds the number of variables of each bit, `N` is any number of variables that contains
those of `f`. -/
theorem C31_average_value (f : List (BDD m)) (n N : Nat) (hN : Fits N f)
    (hn : ∀ b ∈ f, b.supportSize ≤ n) (hlen : f.length + n ≤ 256) :
    averageValue f = .ok (mean N (fun x => (uAt f x : ℚ))) :=
  averageValue_spec f n N hN hn hlen

/-- Bits with different supports. -/
example : averageValue [(BDD.var 0 : BDD .id), (BDD.var 1).and (.var 2)] = .ok 1 ∧
    Fits 3 [(BDD.var 0 : BDD .id), (BDD.var 1).and (.var 2)] ∧
    ∀ b ∈ [(BDD.var 0 : BDD .id), (BDD.var 1).and (.var 2)], b.supportSize ≤ 2 := by decide +kernel

/-! ## C32 `mean_squared_value`

The code counts the minterms of the conjunctions `f[i] & f[b]` over `max_support_size` variables, the
largest support of a single bit.  A conjunction can have a larger support; then the count is a
fraction, and `uint256_t(minterms)` cuts it off. -/

/-- `n` is the largest support of a single bit.  The result never exceeds the mean square, and it is
the mean square exactly if for every two bits, `2^n` times the fraction of inputs that set both is a
whole number.  Missing for the full claim: the other functions, for which it is false. -/
theorem C32_mean_squared_value_partial (f : List (BDD m)) (n N : Nat) (hN : Fits N f)
    (hn : ∀ b ∈ f, b.supportSize ≤ n) (hn' : n = 0 ∨ ∃ b ∈ f, b.supportSize = n)
    (hlen : 2 * f.length + n ≤ 256) :
    ∃ q, meanSquaredValue f = .ok q ∧ q ≤ mean N (fun x => (uAt f x : ℚ) ^ 2) ∧
      (q = mean N (fun x => (uAt f x : ℚ) ^ 2) ↔
        f.Pairwise (fun a b => ∃ k : Nat,
          mean N (fun x => if a.eval x = true ∧ b.eval x = true then 1 else 0) * 2 ^ n = k)) :=
  meanSquaredValue_spec f n N hN hn hn' hlen

/-- In particular it is exact if some bit depends on all the variables. -/
theorem C32_mean_squared_value_full_support_partial (f : List (BDD m)) (n N : Nat) (hN : Fits N f)
    (b : BDD m) (hb : b ∈ f) (hbn : b.supportSize = n)
    (hall : ∀ c ∈ f, ∀ v ∈ c.supportIndices, v ∈ b.supportIndices) (hlen : 2 * f.length + n ≤ 256) :
    meanSquaredValue f = .ok (mean N (fun x => (uAt f x : ℚ) ^ 2)) := by
  have hsub : ∀ c : BDD m, (∀ v ∈ c.supportIndices, v ∈ b.supportIndices) → c.supportSize ≤ n := by
    intro c hc
    rw [← hbn]
    unfold BDD.supportSize
    rw [← List.dedup_eq_self.mpr (show c.supportIndices.Nodup from List.nodup_dedup _),
      ← List.dedup_eq_self.mpr (show b.supportIndices.Nodup from List.nodup_dedup _),
      ← List.card_toFinset, ← List.card_toFinset]
    exact Finset.card_le_card (fun v hv => by simpa using hc v (by simpa using hv))
  obtain ⟨q, hq, _, hiff⟩ := meanSquaredValue_spec f n N hN (fun c hc => hsub c (hall c hc))
    (.inr ⟨b, hb, hbn⟩) hlen
  rw [hq, hiff.mpr]
  rw [List.pairwise_iff_forall_sublist]
  intro a c hac
  have ha : a ∈ f := hac.subset (by simp)
  have hc : c ∈ f := hac.subset (by simp)
  have hsupp : ∀ v ∈ (a.and c).supportIndices, v ∈ b.supportIndices := by
    intro v hv
    rw [BDD.mem_supportIndices] at hv
    obtain ⟨x, hx⟩ := hv
    rw [BDD.eval_and, BDD.eval_and] at hx
    by_cases h1 : a.eval (Function.update x v true) = a.eval (Function.update x v false)
    · apply hall c hc
      rw [BDD.mem_supportIndices]
      refine ⟨x, fun h2 => hx (by rw [h1, h2])⟩
    · exact hall a ha v (BDD.mem_supportIndices.mpr ⟨x, h1⟩)
  obtain ⟨k, hk, _⟩ := (a.and c).countMinterm_int n (hsub _ hsupp)
  refine ⟨k, ?_⟩
  rw [← hk, BDD.countMinterm]
  congr 1
  change _ = bothFrac a c
  rw [bothFrac_eq_mean N a c (hN a ha) (hN c hc)]
  exact mean_congr N (fun x => by cases a.eval x <;> cases c.eval x <;> simp)

/-- How much can be missing: the result is at least a third of the mean square, and the difference is at most
`2 (2^k - 1)(2^k - 2) / (3 · 2^n)` for `k` bits. It is 0 only if the mean square is. -/
theorem C32_mean_squared_value_bounds (f : List (BDD m)) (n N : Nat) (hN : Fits N f)
    (hn : ∀ b ∈ f, b.supportSize ≤ n) (hn' : n = 0 ∨ ∃ b ∈ f, b.supportSize = n)
    (hlen : 2 * f.length + n ≤ 256) (q μ : ℚ) (hμ : μ = mean N (fun x => (uAt f x : ℚ) ^ 2))
    (hq : meanSquaredValue f = .ok q) :
    μ ≤ 3 * q ∧ μ - q ≤ 2 * (2 ^ f.length - 1) * (2 ^ f.length - 2) / (3 * 2 ^ n) ∧ (q = 0 ↔ μ = 0) := by
  obtain ⟨h1, h2⟩ := meanSquaredValue_bounds f n N hN hn hn' hlen q hq
  obtain ⟨q', hq', h3, -⟩ := meanSquaredValue_spec f n N hN hn hn' hlen
  rw [hq] at hq'
  cases hq'
  rw [← hμ] at h2 h3
  have h4 : μ ≤ mean N (fun x => (uAt f x : ℚ) ^ 2 + 2 * (uAt f x : ℚ)) := by
    rw [hμ]
    apply mean_mono
    intro x
    have : (0 : ℚ) ≤ uAt f x := Nat.cast_nonneg _
    linarith
  have h5 : 0 ≤ μ := by
    have := mean_mono N (g := fun _ => 0) (h := fun x => (uAt f x : ℚ) ^ 2) (fun x => by positivity)
    rwa [mean_const, ← hμ] at this
  refine ⟨by linarith, by linarith, fun h => by linarith, fun h => by linarith⟩

example : meanSquaredValue [(BDD.var 0 : BDD .id), .var 1, .var 2] = .ok (21 / 2) ∧
    mean 3 (fun x => (uAt [(BDD.var 0 : BDD .id), .var 1, .var 2] x : ℚ) ^ 2) = 35 / 2 := by decide +kernel

/-- Independent bits: for a vector of `k` different variables the code returns `(4^k - 1) / 6`, while the mean square
is `(2^k - 1)(2^(k+1) - 1) / 6`. The true value is nearly twice the computed one. -/
theorem C32_mean_squared_value_variables (l : List Nat) (hl : l.Nodup) (hne : l ≠ []) (hlen : l.length ≤ 127) (N : Nat)
    (hN : ∀ v ∈ l, v < N) (f : List (BDD m)) (hf : f = l.map BDD.var) :
    meanSquaredValue f = .ok ((4 ^ l.length - 1) / 6) ∧
      mean N (fun x => (uAt f x : ℚ) ^ 2) = (2 ^ l.length - 1) * (2 ^ (l.length + 1) - 1) / 6 := by
  subst hf
  have hs : ∀ v w, w ∈ (BDD.var v : BDD m).supportIndices ↔ w = v := by
    intro v w
    rw [BDD.mem_supportIndices]
    constructor
    · rintro ⟨x, hx⟩
      by_contra h
      apply hx
      simp [BDD.eval_var, Ne.symm h]
    · rintro rfl
      exact ⟨fun _ => false, by simp [BDD.eval_var]⟩
  have hfit : Fits N (l.map (BDD.var : Nat → BDD m)) := by
    intro b hb v hv
    obtain ⟨w, hw, rfl⟩ := List.mem_map.mp hb
    rw [(hs w v).mp hv]
    exact hN w hw
  have h1 : ∀ v, (BDD.var v : BDD m).supportSize = 1 := by
    intro v
    unfold BDD.supportSize
    have hnd : (BDD.var v : BDD m).supportIndices.Nodup := List.nodup_dedup _
    rw [(List.perm_of_nodup_nodup_toFinset_eq (l' := [v]) hnd (by simp) (by ext w; simp [hs])).length_eq]
    rfl
  have hmax : maxSupportSize (l.map (BDD.var : Nat → BDD m)) = 1 := by
    apply le_antisymm
    · apply maxSupportSize_le
      intro b hb
      obtain ⟨w, hw, rfl⟩ := List.mem_map.mp hb
      exact (h1 w).le
    · obtain ⟨v, hv⟩ := List.exists_mem_of_ne_nil l hne
      have := supportSize_le_max (List.mem_map_of_mem (f := (BDD.var : Nat → BDD m)) hv)
      rwa [h1] at this
  obtain ⟨h2, h3⟩ := sqSum_vars (m := m) l hl
  rw [← sqSum_mean N _ hfit, h2, meanSquaredValue_exact _ (by rw [hmax, List.length_map]; omega) (by rw [hmax]; norm_num),
    hmax, h3]
  refine ⟨?_, rfl⟩
  congr 1
  ring

/-- Counterexample: two independent bits have mean square 7/2, the code returns 5/2. -/
theorem C32_mean_squared_value_false : ∃ f : List (BDD Mgr.id), Fits 2 f ∧
    meanSquaredValue f = .ok (5 / 2) ∧ mean 2 (fun x => (uAt f x : ℚ) ^ 2) = 7 / 2 := by
  refine ⟨[.var 0, .var 1], by decide +kernel, by decide +kernel, by decide +kernel⟩

example : meanSquaredValue [(BDD.var 0 : BDD .id), (BDD.var 0).and (.var 1)] = .ok (5 / 2) := by
  decide +kernel

/-! ## C33 `average_case_error`, `mean_squared_error` -/

theorem C33_average_case_error (f g : List (BDD m)) (N : Nat) (hf : Fits N f) (hg : Fits N g)
    (hlen : max f.length g.length + 1 + N ≤ 256) :
    averageCaseError .baseTwo f g = .ok (mean N (fun x => ((|(uAt f x : Int) - uAt g x| : Int) : ℚ))) := by
  obtain ⟨d, hd, hl, hv⟩ := C03_absolute_difference_unsigned f g
  have hfit : Fits N d := fits_derived hf hg (fun a b => |(uval a : Int) - uval b|) hv
  have := averageValue_spec d N N hfit (fun b hb => supportSize_le_of_fits (hfit b hb)) (by omega)
  simp only [averageCaseError, hd, bind, Except.bind, this]
  congr 1
  apply mean_congr
  intro x
  rw [← hv x]; rfl

/-- Two's complement: the mean of the wrapped difference. -/
theorem C33_average_case_error_signed_wraps (f g : List (BDD m)) (N : Nat) (hf : Fits N f)
    (hg : Fits N g) (hf0 : f ≠ []) (hg0 : g ≠ []) (hlen : max f.length g.length + N ≤ 256) :
    averageCaseError .twosComplement f g = .ok (mean N (fun x =>
      ((min |sAt f x - sAt g x| (2 ^ max f.length g.length - |sAt f x - sAt g x|) : Int) : ℚ))) := by
  obtain ⟨d, hd, hl, hv⟩ := C04_absolute_difference_signed_wraps f g hf0 hg0
  have hfit : Fits N d := fits_derived hf hg (fun a b => min |tcval a - tcval b|
    (2 ^ max f.length g.length - |tcval a - tcval b|)) hv
  have := averageValue_spec d N N hfit (fun b hb => supportSize_le_of_fits (hfit b hb)) (by omega)
  simp only [averageCaseError, hd, bind, Except.bind, this]
  congr 1
  apply mean_congr
  intro x
  rw [← hv x]; rfl

/-- So it is the average case error exactly if no difference exceeds half of the number range. -/
theorem C33_average_case_error_signed_partial (f g : List (BDD m)) (N : Nat) (hf : Fits N f)
    (hg : Fits N g) (hf0 : f ≠ []) (hg0 : g ≠ []) (hlen : max f.length g.length + N ≤ 256) :
    averageCaseError .twosComplement f g = .ok (mean N (fun x => ((|sAt f x - sAt g x| : Int) : ℚ))) ↔
      ∀ x, 2 * |sAt f x - sAt g x| ≤ 2 ^ max f.length g.length := by
  rw [C33_average_case_error_signed_wraps f g N hf hg hf0 hg0 hlen]
  constructor
  · intro h x
    by_contra hc
    have h1 := Except.ok.inj h
    have h2 := mean_lt N (g := fun x => ((min |sAt f x - sAt g x|
        (2 ^ max f.length g.length - |sAt f x - sAt g x|) : Int) : ℚ))
      (h := fun x => ((|sAt f x - sAt g x| : Int) : ℚ)) (fun y => by
        exact_mod_cast min_le_left _ _) (fun i => x i) (by
        have hs : ∀ F : List (BDD m), Fits N F → sAt F (ext (fun i : Fin N => x i)) = sAt F x :=
          fun F hF => by unfold sAt; rw [bitsAt_ext hF]
        rw [hs f hf, hs g hg]
        have : min |sAt f x - sAt g x| (2 ^ max f.length g.length - |sAt f x - sAt g x|)
            < |sAt f x - sAt g x| := by omega
        exact_mod_cast this)
    linarith
  · intro h
    congr 1
    apply mean_congr
    intro x
    have := h x
    rw [min_eq_left (by omega)]

/-- Counterexample for the signed average: constants 1 and -2. -/
theorem C33_average_case_error_signed_false : ∃ f g : List (BDD Mgr.id), f.length = g.length ∧
    Fits 0 f ∧ Fits 0 g ∧ averageCaseError .twosComplement f g = .ok 1 ∧
    mean 0 (fun x => ((|sAt f x - sAt g x| : Int) : ℚ)) = 3 := by
  refine ⟨[.one, .zero], [.zero, .one], rfl, by decide +kernel, by decide +kernel, by decide +kernel, ?_⟩
  simp [sAt, tcval, uval, mean_const]

/-- The mean squared error inherits the truncation of `mean_squared_value` (C32): it never exceeds the
true value and is at least a third of it.  Missing: equality, which fails below. -/
theorem C33_mean_squared_error_partial (f g : List (BDD m)) (N : Nat) (hf : Fits N f) (hg : Fits N g)
    (hlen : 2 * (max f.length g.length + 1) + N ≤ 256) :
    ∃ q, meanSquaredError .baseTwo f g = .ok q ∧
      q ≤ mean N (fun x => (((uAt f x : Int) - uAt g x : Int) : ℚ) ^ 2) ∧
      mean N (fun x => (((uAt f x : Int) - uAt g x : Int) : ℚ) ^ 2) ≤ 3 * q ∧
      -- exact if some bit of the absolute difference depends on all variables of the difference
      ((∃ d b, bddAbsoluteDifference .baseTwo f g = .ok d ∧ b ∈ d ∧
          ∀ c ∈ d, ∀ v ∈ c.supportIndices, v ∈ b.supportIndices) →
        q = mean N (fun x => (((uAt f x : Int) - uAt g x : Int) : ℚ) ^ 2)) := by
  obtain ⟨d, hd, hl, hv⟩ := C03_absolute_difference_unsigned f g
  have hfit : Fits N d := fits_derived hf hg (fun a b => |(uval a : Int) - uval b|) hv
  have hsz : maxSupportSize d ≤ N := maxSupportSize_le (fun b hb => supportSize_le_of_fits (hfit b hb))
  have hex : maxSupportSize d = 0 ∨ ∃ b ∈ d, b.supportSize = maxSupportSize d := by
    by_contra hc
    push Not at hc
    have : maxSupportSize d ≤ maxSupportSize d - 1 := maxSupportSize_le (fun b hb => by
      have h1 := supportSize_le_max hb
      have h2 := hc.2 b hb
      omega)
    omega
  obtain ⟨q, hq, hle, _⟩ := meanSquaredValue_spec d (maxSupportSize d) N hfit
    (fun b hb => supportSize_le_max hb) hex (by omega)
  have em : mean N (fun x => (uAt d x : ℚ) ^ 2)
      = mean N (fun x => (((uAt f x : Int) - uAt g x : Int) : ℚ) ^ 2) := by
    apply mean_congr
    intro x
    have e := hv x
    have h2 : ((uAt d x : Int) : ℚ) = ((|(uAt f x : Int) - uAt g x| : Int) : ℚ) := by rw [e]
    rw [Int.cast_natCast] at h2
    rw [h2, Int.cast_abs, sq_abs]
  refine ⟨q, by simp only [meanSquaredError, hd, bind, Except.bind, hq], em ▸ hle,
    em ▸ (C32_mean_squared_value_bounds d (maxSupportSize d) N hfit (fun b hb => supportSize_le_max hb) hex (by omega) q _
      rfl hq).1, ?_⟩
  rintro ⟨d', b, hd', hb, hall⟩
  rw [hd] at hd'
  cases hd'
  have h1 := C32_mean_squared_value_full_support_partial d b.supportSize N hfit b hb rfl hall
    (by have := supportSize_le_max hb; omega)
  rw [hq] at h1
  rw [Except.ok.inj h1, em]

/-- Counterexample: a two-bit identity approximated by 0. -/
theorem C33_mean_squared_error_false : ∃ f g : List (BDD Mgr.id), f.length = g.length ∧ Fits 2 f ∧
    Fits 2 g ∧ meanSquaredError .baseTwo f g = .ok (5 / 2) ∧
    mean 2 (fun x => (((uAt f x : Int) - uAt g x : Int) : ℚ) ^ 2) = 7 / 2 := by
  refine ⟨[.var 0, .var 1], [.zero, .zero], rfl, by decide +kernel, by decide +kernel,
    by decide +kernel, by decide +kernel⟩

example : averageCaseError .baseTwo [(BDD.var 0 : BDD .id), .var 1] [.var 1] = .ok 1 ∧
    Fits 2 [(BDD.var 0 : BDD .id), .var 1] ∧ Fits 2 [(BDD.var 1 : BDD .id)] := by decide +kernel

/-! ## C35 `error_rate` -/

theorem C35_error_rate (f g : List (BDD m)) (N : Nat) (hl : f.length = g.length)
    (hf : Fits N f) (hg : Fits N g) (hN' : N ≤ 1024) :
    ∃ q, errorRate f g = .ok q ∧ q = mean N (fun x => if bitsAt f x = bitsAt g x then 0 else 1) ∧
      0 ≤ q ∧ q ≤ 1 ∧ (q = 0 ↔ f = g) := by
  have h := errorRate_spec f g N hl.le (fun b hb => by
    rcases List.mem_append.mp hb with h | h
    · exact hf b h
    · exact hg b h) hN'
  rw [List.take_of_length_le hl.ge] at h
  refine ⟨_, h, rfl, ?_, ?_, ?_⟩
  · have := mean_mono N (g := fun _ => 0) (h := fun x => if bitsAt f x = bitsAt g x then (0 : ℚ) else 1)
      (fun x => by split <;> norm_num)
    rwa [mean_const] at this
  · have := mean_mono N (h := fun _ => 1) (g := fun x => if bitsAt f x = bitsAt g x then (0 : ℚ) else 1)
      (fun x => by split <;> norm_num)
    rwa [mean_const] at this
  · constructor
    · intro h0
      have hall : ∀ x, bitsAt f x = bitsAt g x := by
        by_contra hc
        push Not at hc
        obtain ⟨x, hx⟩ := hc
        have := mean_lt N (g := fun _ => 0)
          (h := fun x => if bitsAt f x = bitsAt g x then (0 : ℚ) else 1)
          (fun x => by split <;> norm_num) (fun i => x i) (by
            rw [bitsAt_ext hf, bitsAt_ext hg, if_neg hx]; norm_num)
        rw [mean_const, h0] at this
        exact lt_irrefl _ this
      apply List.ext_getElem hl
      intro i h1 h2
      apply BDD.ext_eval
      intro x
      have := congrArg (fun l => l[i]?) (hall x)
      simpa [bitsAt, h1, h2] using this
    · rintro rfl
      simp [mean_const]

/-- Vectors of different length: a longer second vector is ignored beyond the length of the first, a
shorter one is undefined behaviour. -/
theorem C35_error_rate_lengths (f g : List (BDD m)) :
    (g.length < f.length → errorRate f g = .error .ub) ∧
    (f.length ≤ g.length → ∀ N, N ≤ 1024 → Fits N (f ++ g) →
      errorRate f g = .ok (mean N (fun x =>
        if bitsAt f x = bitsAt (g.take f.length) x then 0 else 1))) :=
  ⟨fun h => by
    unfold errorRate
    rw [miterLoop_ub f g _ h]
    rfl, fun h N hN hfit => errorRate_spec f g N h hfit hN⟩

/-- The overload for single functions. -/
theorem C35_error_rate_single (f g : BDD m) (N : Nat) (hf : Fits N [f]) (hg : Fits N [g])
    (hN : N ≤ 1024) : errorRate1 f g = .ok (errRate N f.eval g.eval) := by
  obtain ⟨q, hq, he, _⟩ := C35_error_rate [f] [g] N rfl hf hg hN
  rw [errorRate1, hq, he]
  apply congrArg Except.ok
  exact mean_congr N (fun x => by simp)

example : errorRate [(BDD.var 0 : BDD .id), .var 1] [.var 0, .var 2] = .ok (1 / 2) := by decide +kernel

/-! ## C37 `error_rate_sampling` -/

theorem C37_error_rate_sampling (f g : List (BDD m)) (readSize : Nat) (samples : Nat)
    (rs : Nat → Nat → Nat) (hl : f.length = g.length) (hf : Fits readSize f) (hg : Fits readSize g)
    (h1 : 1 ≤ samples) (h2 : samples < 2 ^ 31) :
    ∃ q, errorRateSampling f g readSize samples rs = .ok q ∧
      q = (((List.range samples).filter (fun j =>
        decide (bitsAt f (drawn readSize rs j) ≠ bitsAt g (drawn readSize rs j)))).length : ℚ) / samples ∧
      0 ≤ q ∧ q ≤ 1 ∧ (f = g → q = 0) ∧ ((∀ x, bitsAt f x ≠ bitsAt g x) → q = 1) := by
  have hpos : (0 : ℚ) < samples := by exact_mod_cast h1
  have hloop := samplingLoop_spec f g readSize rs hl hf hg samples 0
  simp only [Nat.zero_add] at hloop
  refine ⟨_, ?_, rfl, ?_, ?_, ?_, ?_⟩
  · rw [errorRateSampling, if_neg (by simp [hl]), if_neg (by omega), Int.toNat_natCast, hloop]
    simp only [bind, Except.bind, fdiv]
    rw [if_neg (by exact_mod_cast hpos.ne'), Int.cast_natCast]
  · positivity
  · rw [div_le_one hpos]
    have := List.length_filter_le (fun j =>
        decide (bitsAt f (drawn readSize rs j) ≠ bitsAt g (drawn readSize rs j))) (List.range samples)
    rw [List.length_range] at this
    exact_mod_cast this
  · rintro rfl
    simp
  · intro hall
    rw [List.filter_eq_self.mpr (fun j _ => by simpa using hall _), List.length_range, div_self hpos.ne']

theorem C37_error_rate_sampling_degenerate (f g : List (BDD m)) (readSize : Nat) (rs : Nat → Nat → Nat) :
    (f.length ≠ g.length → ∀ s, errorRateSampling f g readSize s rs = .error .assertion) ∧
    (f.length = g.length → errorRateSampling f g readSize 0 rs = .error .nonFinite) := by
  refine ⟨fun h s => by rw [errorRateSampling, if_pos h], fun h => ?_⟩
  rw [errorRateSampling, if_neg (by simp [h]), if_neg (by norm_num)]
  simp [samplingLoop, bind, Except.bind, fdiv]

example : errorRateSampling [(BDD.var 0 : BDD .id)] [.var 1] 2 4 (fun i v => i * v) = .ok (1 / 2) := by
  decide +kernel

/-! ## C38 `error_rate_efficient_sampling` -/

/-- Rate at which bit `i` of the two functions differs. -/
def bitRate (N : Nat) (f g : List (BDD m)) (i : Nat) : ℚ :=
  mean N (fun x => if (bitsAt f x)[i]? = (bitsAt g x)[i]? then 0 else 1)

theorem bitRate_bounds (N : Nat) (f g : List (BDD m)) (i : Nat) :
    0 ≤ bitRate N f g i ∧ bitRate N f g i ≤ 1 := by
  unfold bitRate
  constructor
  · have := mean_mono N (g := fun _ => 0)
      (h := fun x => if (bitsAt f x)[i]? = (bitsAt g x)[i]? then (0 : ℚ) else 1)
      (fun x => by split <;> norm_num)
    rwa [mean_const] at this
  · have := mean_mono N (h := fun _ => 1)
      (g := fun x => if (bitsAt f x)[i]? = (bitsAt g x)[i]? then (0 : ℚ) else 1)
      (fun x => by split <;> norm_num)
    rwa [mean_const] at this

theorem activations_eq (f g : List (BDD m)) (N : Nat) (hl : f.length = g.length) (hf : Fits N f)
    (hg : Fits N g) : activations (xorDiff f g) =
      (List.range f.length).map (fun i => (i, bitRate N f g i)) := by
  have hlen : (xorDiff f g).length = f.length := by simp [xorDiff, hl]
  apply List.ext_getElem
  · simp [activations, hlen]
  intro i h1 h2
  have hi : i < f.length := by simpa using h2
  have hig : i < g.length := hl ▸ hi
  simp only [activations, List.getElem_zip, List.getElem_range, List.getElem_map, Prod.mk.injEq,
    true_and]
  rw [BDD.frac_eq_mean N _ (fits_xorDiff f g hf hg _ (List.getElem_mem _))]
  apply mean_congr
  intro x
  simp only [xorDiff, List.getElem_zipWith, BDD.eval_xor, bitsAt, List.getElem?_map,
    List.getElem?_eq_getElem hi, List.getElem?_eq_getElem hig, Option.map_some, Option.some.injEq]
  cases f[i].eval x <;> cases g[i].eval x <;> simp

/-- The facts about a sorted activation list that the proofs use. -/
theorem acts_facts (f g : List (BDD m)) (N : Nat) (hl : f.length = g.length) (hf : Fits N f)
    (hg : Fits N g) {idx0 : Nat} {act0 : ℚ} {rest : List (Nat × ℚ)}
    (hs : SortedActs (xorDiff f g) ((idx0, act0) :: rest)) :
    (∀ p ∈ (idx0, act0) :: rest, p.1 < f.length ∧ p.2 = bitRate N f g p.1) ∧
    (∀ i < f.length, (i, bitRate N f g i) ∈ (idx0, act0) :: rest) ∧
    (∀ p ∈ rest, p.2 ≤ act0 ∧ p.1 ≠ idx0) ∧
    rest.length + 1 = f.length ∧
    act0 + (rest.map Prod.snd).sum = ((List.range f.length).map (bitRate N f g)).sum ∧
    ((xorDiff f g).map (fun d => d.edge.frac)).sum = act0 + (rest.map Prod.snd).sum := by
  obtain ⟨hp, hsort⟩ := hs
  have hp0 := hp
  rw [activations_eq f g N hl hf hg] at hp
  refine ⟨?_, ?_, ?_, ?_, ?_, ?_⟩
  · intro p hpm
    have := hp.mem_iff.mp hpm
    simp only [List.mem_map, List.mem_range] at this
    obtain ⟨i, hi, rfl⟩ := this
    exact ⟨hi, rfl⟩
  · intro i hi
    exact hp.mem_iff.mpr (List.mem_map.mpr ⟨i, List.mem_range.mpr hi, rfl⟩)
  · intro p hpm
    refine ⟨(List.pairwise_cons.mp hsort).1 p hpm, fun he => ?_⟩
    have hnd : (((idx0, act0) :: rest).map Prod.fst).Nodup := by
      rw [(hp.map Prod.fst).nodup_iff]
      simp [Function.comp_def, List.nodup_range]
    rw [List.map_cons, List.nodup_cons] at hnd
    have h2 := List.mem_map_of_mem (f := Prod.fst) hpm
    rw [he] at h2
    exact hnd.1 h2
  · have := hp.length_eq
    simpa using this
  · have := (hp.map Prod.snd).sum_eq
    simpa [Function.comp_def] using this
  · have := (hp0.map Prod.snd).sum_eq
    rw [List.map_cons, List.sum_cons] at this
    rw [this, activations, List.map_snd_zip (by simp)]

/-- `acts` is any possible result of the (unstable) sort.  If at least two bits differ somewhere, the
result lies between every single-bit rate and the sum of all of them, and is at most 1.  The true error
rate lies between the same bounds, so the error of the estimate is at most their difference. -/
theorem C38_efficient_sampling_bounds_partial (f g : List (BDD m)) (readSize samples : Nat)
    (acts : List (Nat × ℚ)) (rs : Nat → Nat → Nat → Nat) (hl : f.length = g.length)
    (hf : Fits readSize f) (hg : Fits readSize g) (h0 : 1 ≤ readSize) (h1 : readSize ≤ 1024)
    (hs : samples < 2 ^ 31) (hacts : SortedActs (xorDiff f g) acts)
    (htwo : ∃ i j, i < j ∧ j < f.length ∧ 0 < bitRate readSize f g i ∧ 0 < bitRate readSize f g j) :
    ∃ q, errorRateEfficientSampling f g readSize samples acts rs = .ok q ∧
      (∀ i, bitRate readSize f g i ≤ q) ∧ q ≤ 1 ∧
      q ≤ ((List.range f.length).map (bitRate readSize f g)).sum := by
  obtain ⟨i, j, hij, hj, hi0, hj0⟩ := htwo
  have hlen : (xorDiff f g).length = f.length := by simp [xorDiff, hl]
  match acts, hacts with
  | [], hacts =>
    have := hacts.1.length_eq
    simp [activations, hlen] at this
    have h0 : f.length = 0 := by simp [← this]
    omega
  | (idx0, act0) :: rest, hacts =>
    obtain ⟨hmem, hin, hrest, hrl, hsum, hmax⟩ := acts_facts f g readSize hl hf hg hacts
    have hnn : ∀ q ∈ rest.map Prod.snd, 0 ≤ q := by
      intro q hq
      obtain ⟨p, hp, rfl⟩ := List.mem_map.mp hq
      rw [(hmem p (by simp [hp])).2]
      exact (bitRate_bounds _ _ _ _).1
    have hpos : 0 < (rest.map Prod.snd).sum := by
      have hex : ∃ p ∈ rest, 0 < p.2 := by
        rcases List.mem_cons.mp (hin j hj) with h | h
        · rcases List.mem_cons.mp (hin i (by omega)) with h' | h'
          · have := (Prod.mk.inj h).1
            have := (Prod.mk.inj h').1
            omega
          · exact ⟨_, h', hi0⟩
        · exact ⟨_, h, hj0⟩
      obtain ⟨p, hp, hp0⟩ := hex
      exact lt_of_lt_of_le hp0 (List.single_le_sum hnn _ (List.mem_map_of_mem hp))
    have hd0 := (hmem (idx0, act0) (by simp)).1
    simp only at hd0
    have hdiff := fits_xorDiff f g hf hg
    obtain ⟨q, hq, hq1, hq2⟩ := effLoop_bounds (xorDiff f g) readSize hdiff samples (by omega)
      (by exact_mod_cast hs) (rest.map Prod.snd).sum hpos rs rest 1
      [(xorDiff f g)[idx0]'(by omega)] act0
      (fun b hb => by
        rw [List.mem_singleton] at hb
        subst hb
        exact hdiff _ (List.getElem_mem _))
      (fun p hp => ⟨hlen ▸ (hmem p (by simp [hp])).1, hnn _ (List.mem_map_of_mem hp),
        List.single_le_sum hnn _ (List.mem_map_of_mem hp)⟩)
    have hv : vget (xorDiff f g) idx0 = .ok ((xorDiff f g)[idx0]'(by omega)) := by
      have hi : idx0 < (xorDiff f g).length := by omega
      rw [vget_eq _ _ ((xorDiff f g)[idx0]) hi, List.getD_eq_getElem _ _ hi]
    have htop : ∀ k, bitRate readSize f g k ≤ act0 := by
      intro k
      by_cases hk : k < f.length
      · rcases List.mem_cons.mp (hin k hk) with h | h
        · exact (Prod.mk.inj h).2.le
        · exact (hrest _ h).1
      · have : bitRate readSize f g k = 0 := by
          rw [bitRate, ← mean_const readSize 0]
          apply mean_congr
          intro x
          rw [List.getElem?_eq_none (by simp [bitsAt]; omega),
            List.getElem?_eq_none (by simp [bitsAt]; omega), if_pos rfl, mean_const]
        have h2 := (hmem (idx0, act0) (by simp)).2
        simp only at h2
        rw [this, h2]
        exact (bitRate_bounds _ _ _ _).1
    refine ⟨min 1 q, ?_, fun k => le_min (bitRate_bounds _ _ _ _).2 ((htop k).trans hq1),
      min_le_left _ _, (min_le_right _ _).trans (hq2.trans hsum.le)⟩
    unfold errorRateEfficientSampling
    rw [if_neg (by simp [hl])]
    dsimp only
    rw [if_neg (by omega), if_neg (by omega)]
    simp only [hv, bind, Except.bind, hmax, add_sub_cancel_left, hq]

/-- The true error rate lies between the same bounds. -/
theorem C38_bounds_enclose_error_rate (f g : List (BDD m)) (N : Nat) (hl : f.length = g.length) :
    (∀ i, bitRate N f g i ≤ mean N (fun x => if bitsAt f x = bitsAt g x then 0 else 1)) ∧
    mean N (fun x => if bitsAt f x = bitsAt g x then 0 else 1) ≤
      ((List.range f.length).map (bitRate N f g)).sum := by
  constructor
  · intro i
    apply mean_mono
    intro x
    by_cases h : bitsAt f x = bitsAt g x
    · simp [h]
    · rw [if_neg h]; split <;> norm_num
  · have := mean_sum N (List.range f.length) (fun i x =>
      if (bitsAt f x)[i]? = (bitsAt g x)[i]? then (0 : ℚ) else 1)
    unfold bitRate
    rw [← this]
    apply mean_mono
    intro x
    have hnn : ∀ q ∈ (List.range f.length).map (fun i =>
        if (bitsAt f x)[i]? = (bitsAt g x)[i]? then (0 : ℚ) else 1), 0 ≤ q := by
      intro q hq
      obtain ⟨i, _, rfl⟩ := List.mem_map.mp hq
      split <;> norm_num
    by_cases h : bitsAt f x = bitsAt g x
    · rw [if_pos h]
      exact List.sum_nonneg hnn
    · rw [if_neg h]
      have : ∃ i < f.length, (bitsAt f x)[i]? ≠ (bitsAt g x)[i]? := by
        by_contra hc
        push Not at hc
        apply h
        apply List.ext_getElem?
        intro i
        by_cases hi : i < f.length
        · exact hc i hi
        · rw [List.getElem?_eq_none (by simp [bitsAt]; omega),
            List.getElem?_eq_none (by simp [bitsAt]; omega)]
      obtain ⟨i, hi, hne⟩ := this
      refine le_trans ?_ (List.single_le_sum hnn _ (List.mem_map_of_mem (List.mem_range.mpr hi)))
      rw [if_neg hne]

/-- One-bit functions: the exact error rate. -/
theorem C38_efficient_sampling_one_bit (f g : BDD m) (readSize : Nat) (samples : Int)
    (acts : List (Nat × ℚ)) (rs : Nat → Nat → Nat → Nat) (hf : Fits readSize [f])
    (hg : Fits readSize [g]) (h0 : 1 ≤ readSize) (h1 : readSize ≤ 1024)
    (hacts : SortedActs (xorDiff [f] [g]) acts) :
    errorRateEfficientSampling [f] [g] readSize samples acts rs
      = .ok (errRate readSize f.eval g.eval) := by
  match acts, hacts with
  | [], hacts =>
    have := hacts.1.length_eq
    simp [activations, xorDiff] at this
  | (idx0, act0) :: rest, hacts =>
    obtain ⟨hmem, hin, hrest, hrl, hsum, hmax⟩ := acts_facts [f] [g] readSize rfl hf hg hacts
    have hr : rest = [] := by
      apply List.length_eq_zero_iff.mp
      simpa using hrl
    subst hr
    obtain ⟨hi, ha⟩ := hmem (idx0, act0) (by simp)
    have hi0 : idx0 = 0 := by simpa using hi
    subst hi0
    simp only at ha
    have hb : bitRate readSize [f] [g] 0 = errRate readSize f.eval g.eval :=
      mean_congr _ (fun x => by simp [bitsAt])
    unfold errorRateEfficientSampling
    rw [if_neg (by simp)]
    dsimp only
    rw [if_neg (by omega), if_neg (by omega)]
    have h1 := (bitRate_bounds readSize [f] [g] 0).2
    simp only [xorDiff, List.zipWith_cons_cons, vget, bind, Except.bind, effLoop]
    rw [ha, min_eq_right h1, hb]

/-- With at least two bits of which at most one ever differs (in particular for `f = g`), the code
computes `0.0/0.0` and converts the NaN to `long`: undefined behaviour.  So the claim is false there. -/
theorem C38_efficient_sampling_undefined (f g : List (BDD m)) (readSize : Nat) (samples : Int)
    (acts : List (Nat × ℚ)) (rs : Nat → Nat → Nat → Nat) (hl : f.length = g.length)
    (hf : Fits readSize f) (hg : Fits readSize g) (h1 : readSize ≤ 1024)
    (hacts : SortedActs (xorDiff f g) acts) (hlen2 : 2 ≤ f.length)
    (hone : ∀ i j, i < j → j < f.length → bitRate readSize f g i = 0 ∨ bitRate readSize f g j = 0) :
    errorRateEfficientSampling f g readSize samples acts rs = .error .ub := by
  have hlen : (xorDiff f g).length = f.length := by simp [xorDiff, hl]
  match acts, hacts with
  | [], hacts =>
    have := hacts.1.length_eq
    simp [activations, hlen] at this
    have h0 : f.length = 0 := by simp [← this]
    omega
  | (idx0, act0) :: rest, hacts =>
    obtain ⟨hmem, hin, hrest, hrl, hsum, hmax⟩ := acts_facts f g readSize hl hf hg hacts
    have hz : (rest.map Prod.snd).sum = 0 := by
      apply List.sum_eq_zero
      intro q hq
      obtain ⟨p, hp, rfl⟩ := List.mem_map.mp hq
      obtain ⟨hp1, hp2⟩ := hmem p (by simp [hp])
      obtain ⟨ha1, ha2⟩ := hmem (idx0, act0) (by simp)
      simp only at ha1 ha2
      obtain ⟨hr1, hr2⟩ := hrest p hp
      have hnn := (bitRate_bounds readSize f g p.1).1
      rcases Nat.lt_or_gt_of_ne hr2 with hlt | hlt
      · rcases hone p.1 idx0 hlt ha1 with h | h
        · rw [hp2, h]
        · linarith
      · rcases hone idx0 p.1 hlt hp1 with h | h
        · linarith
        · rw [hp2, h]
    have hd0 := (hmem (idx0, act0) (by simp)).1
    simp only at hd0
    have hv : vget (xorDiff f g) idx0 = .ok ((xorDiff f g)[idx0]'(by omega)) := by
      have hi : idx0 < (xorDiff f g).length := by omega
      rw [vget_eq _ _ ((xorDiff f g)[idx0]) hi, List.getD_eq_getElem _ _ hi]
    unfold errorRateEfficientSampling
    rw [if_neg (by simp [hl])]
    dsimp only
    match rest, hrl with
    | [], hrl => simp at hrl; omega
    | (a, b) :: rest', _ =>
      by_cases h0 : readSize = 0
      · simp [h0]
      rw [if_neg h0, if_neg (by omega)]
      simp only [hv, bind, Except.bind, hmax, add_sub_cancel_left, hz, effLoop, if_true]

/-- Witness: two two-bit functions that differ in one bit only; the error rate is 1/2, the code is
undefined for every sample count and random sequence. -/
theorem C38_efficient_sampling_bounds_false : ∃ (f g : List (BDD Mgr.id)) (acts : List (Nat × ℚ)),
    f.length = g.length ∧ Fits 1 f ∧ Fits 1 g ∧ SortedActs (xorDiff f g) acts ∧
    errorRate f g = .ok (1 / 2) ∧
    ∀ samples rs, errorRateEfficientSampling f g 1 samples acts rs = .error .ub := by
  have hs : SortedActs (xorDiff [(BDD.var 0 : BDD .id), .one] [.zero, .one]) [(0, 1 / 2), (1, 0)] := by
    constructor
    · have : activations (xorDiff [(BDD.var 0 : BDD .id), .one] [.zero, .one])
          = [(0, 1 / 2), (1, 0)] := by decide +kernel
      rw [this]
    · norm_num
  refine ⟨[.var 0, .one], [.zero, .one], _, rfl, by decide +kernel, by decide +kernel, hs,
    by decide +kernel, fun samples rs => ?_⟩
  refine C38_efficient_sampling_undefined [.var 0, .one] [.zero, .one] 1 _ _ _ rfl (by decide +kernel) (by decide +kernel)
    (by norm_num) hs (by simp) ?_
  intro i j hij hj
  right
  have : j = 1 := by simp at hj; omega
  subst this
  unfold bitRate
  rw [← mean_const 1 0]
  exact mean_congr _ (fun x => by simp [bitsAt, mean_const])

/-- In a manager without variables the estimate for any two one-bit functions is 0, also for different constants, whose
error rate is 1. -/
theorem C38_no_variables_false : ∃ (f g : BDD Mgr.id) (acts : List (Nat × ℚ)), Fits 0 [f] ∧ Fits 0 [g] ∧
    SortedActs (xorDiff [f] [g]) acts ∧ errorRate1 f g = .ok 1 ∧
    ∀ samples rs, errorRateEfficientSampling [f] [g] 0 samples acts rs = .ok 0 := by
  refine ⟨.one, .zero, [(0, 1)], by decide +kernel, by decide +kernel, ?_, by decide +kernel, fun _ _ => rfl⟩
  have : activations (xorDiff [(BDD.one : BDD .id)] [.zero]) = [(0, 1)] := by decide +kernel
  exact ⟨by rw [this], by simp⟩

/-- Two bits that differ at some inputs. -/
example : errorRateEfficientSampling [(BDD.var 0 : BDD .id), .var 1] [.zero, .zero] 2 10
    [(0, 1 / 2), (1, 1 / 2)] (fun _ b v => b + v) = .ok (1 / 2 + 1 / 2 * (1 / 2)) ∧
    activations (xorDiff [(BDD.var 0 : BDD .id), .var 1] [.zero, .zero]) = [(0, 1 / 2), (1, 1 / 2)] := by
  decide +kernel

/-! ## C40 `average_bit_flip_error` -/

theorem C40_average_bit_flip_error (f g : List (BDD m)) (N : Nat) (hl : f.length = g.length)
    (hf : Fits N f) (hg : Fits N g) (hN : N ≤ 1023) :
    ∃ q, averageBitFlipError f g = .ok q ∧
      q = mean N (fun x => (hamming (bitsAt f x) (bitsAt g x) : ℚ)) ∧ 0 ≤ q ∧ q ≤ f.length := by
  have hsz : maxSupportSize (f ++ g) ≤ N := maxSupportSize_le (fun b hb => by
    apply supportSize_le_of_fits
    rcases List.mem_append.mp hb with h | h
    · exact hf b h
    · exact hg b h)
  have hham : ∀ a b : List Bool, hamming a b ≤ a.length := by
    intro a
    induction a with
    | nil => intro b; simp [hamming]
    | cons c cs ih =>
      intro b
      cases b with
      | nil => simp [hamming]
      | cons d ds =>
        have := ih ds
        have := Bool.toNat_le (c ^^ d)
        simp only [hamming, List.length_cons]
        omega
  refine ⟨_, ?_, rfl, ?_, ?_⟩
  · rw [averageBitFlipError, if_neg (by simp [hl])]
    dsimp only
    rw [pow2, if_neg (by omega)]
    simp only [bind, Except.bind, fdiv]
    rw [if_neg (by positivity), bitFlipSum_spec _ N f g hl hf hg]
    congr 1
    field_simp
  · have := mean_mono N (g := fun _ => 0) (h := fun x => (hamming (bitsAt f x) (bitsAt g x) : ℚ))
      (fun x => by positivity)
    rwa [mean_const] at this
  · have := mean_mono N (h := fun _ => (f.length : ℚ))
      (g := fun x => (hamming (bitsAt f x) (bitsAt g x) : ℚ)) (fun x => by
        have := hham (bitsAt f x) (bitsAt g x)
        rw [show (bitsAt f x).length = f.length by simp [bitsAt]] at this
        exact_mod_cast this)
    rwa [mean_const] at this

theorem C40_average_bit_flip_error_assertion (f g : List (BDD m)) (h : f.length ≠ g.length) :
    averageBitFlipError f g = .error .assertion := by
  rw [averageBitFlipError, if_pos h]

example : averageBitFlipError [(BDD.var 0 : BDD .id), .var 1] [.var 1, .zero] = .ok 1 := by
  decide +kernel

end Verif

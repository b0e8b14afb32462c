import Verif.Proofs.FloatMetrics
import Verif.Props.Float
import Verif.Props.Average

/-!
# C98: what rounding does to the metrics that count minterms
-/

namespace Verif

variable {m : Mgr} {rnd dec : ℚ → ℚ}

/-! ## `average_value` -/

/-- The average is off by at most one unit in the last place of a `double` for each variable (`n` bounds the number
of variables of each bit) and the 100 digits of the quotient; up to 53 variables only the quotient is rounded.
It is 0 exactly if the value always is. -/
theorem C98_average_value (hr : Nearest rnd) (hd : Dec100 dec) (f : List (BDD m)) (n N : Nat) (hN : Fits N f)
    (hn : ∀ b ∈ f, b.supportSize ≤ n) (hlen : f.length + n ≤ 256) :
    ∃ q, averageValueF rnd dec f = .ok q ∧ 0 ≤ q ∧
      |q - mean N (fun x => (uAt f x : ℚ))| ≤ (n / 2 ^ 52 + 1 / 10 ^ 98) * mean N (fun x => (uAt f x : ℚ)) ∧
      (n ≤ 53 → |q - mean N (fun x => (uAt f x : ℚ))| ≤ 1 / 10 ^ 98 * mean N (fun x => (uAt f x : ℚ))) ∧
      (q = 0 ↔ ∀ x, uAt f x = 0) := by
  have hh : ∀ b ∈ f, b.edge.n.height ≤ n := fun b hb => b.height_le.trans (hn b hb)
  have hμ : 0 ≤ mean N (fun x => (uAt f x : ℚ)) := by
    have := mean_mono N (g := fun _ => 0) (h := fun x => (uAt f x : ℚ)) (fun x => by positivity)
    rwa [mean_const] at this
  have hnq : (n : ℚ) ≤ 256 := by exact_mod_cast (show n ≤ 256 by omega)
  obtain ⟨q, h1, h0, h2⟩ := averageValueF_spec (dec := dec) hr f n N hN hn hlen (n / 2 ^ 52)
    (fun b hb k hk => countMintermF_near hr (by omega) b (hh b hb) (by omega))
  have hε : (n : ℚ) / 2 ^ 52 ≤ 1 / 2 := by
    rw [div_le_iff₀ (by positivity)]
    norm_num
    linarith
  obtain ⟨d1, d2, d3⟩ := dec_near hd h0 hμ (hε.trans (by norm_num)) h2
  refine ⟨dec q, h1, d3, d1, fun h53 => ?_, ?_⟩
  · obtain ⟨q', h1', h0', h2'⟩ := averageValueF_spec (dec := dec) hr f n N hN hn hlen 0
      (fun b hb k hk => by rw [countMintermF_exact hr (by omega) b ((hh b hb).trans h53)]; simp)
    have hq : dec q = dec q' := by
      rw [h1] at h1'
      exact Except.ok.inj h1'
    obtain ⟨d1', -, -⟩ := dec_near hd h0' hμ (by norm_num) h2'
    rw [zero_add] at d1'
    rw [hq]
    exact d1'
  · rw [d2, ← mean_uAt_zero N f hN]
    exact near_zero hμ hε h2

example : Dec100 id ∧ (∃ rnd, Nearest rnd) ∧ Fits 3 [(BDD.var 0 : BDD .id), (BDD.var 1).and (.var 2)] ∧
    (∀ b ∈ [(BDD.var 0 : BDD .id), (BDD.var 1).and (.var 2)], b.supportSize ≤ 2) ∧ 2 + 2 ≤ 256 :=
  ⟨⟨fun q => by simpa using by positivity⟩, exists_nearest, by decide +kernel, by decide +kernel, by decide⟩

/-- It is not exact beyond 53 variables, even if the quotient is: in the witness, the disjunction of 54 variables, the
count is rounded. So the claim of C31 does not hold for the code as it runs; the comment in the code says that precision
may be lost. -/
theorem C98_average_value_exact_false (hr : Nearest rnd) (hd : Dec100 dec) : ∃ f : List (BDD Mgr.id), Fits 54 f ∧
    f.length = 1 ∧ ∃ q, averageValueF rnd dec f = .ok q ∧ q ≠ mean 54 (fun x => (uAt f x : ℚ)) := by
  let b : BDD Mgr.id := ⟨⟨false, orDD 0 53⟩, orDD_wf _ _⟩
  have hv : ∀ v ∈ b.supportIndices, v < 54 := fun v hv => by
    unfold BDD.supportIndices at hv
    rw [List.mem_dedup] at hv
    have := orDD_vars _ _ hv
    omega
  have hfit : Fits 54 [b] := fun c hc => by
    simp only [List.mem_singleton] at hc
    subst hc
    exact hv
  have hh : b.edge.n.height = 54 := orDD_height 0 53
  have hsz : maxSupportSize [b] = 54 := by
    have h1 := supportSize_le_of_fits hv
    have h2 := b.height_le
    have : b.supportSize = 54 := by omega
    simp [maxSupportSize, this]
  obtain ⟨k, hk, hk'⟩ := countMintermF_nat hr (n := 54) (by norm_num) b hh.le
  have hkd := (cntF_range hr (n := 54) (by norm_num) b.edge.n b.edge.neg).1
  change IsDouble (countMintermF rnd b 54) at hkd
  rw [hk] at hkd
  have hne : k ≠ 2 ^ 54 - 1 := by
    rintro rfl
    have := not_isDouble_odd (K := 2 ^ 54 - 1) (N := 0) (by norm_num) (by norm_num)
    rw [pow_zero, div_one] at this
    exact this hkd
  have hμ : mean 54 (fun x => (uAt [b] x : ℚ)) = 1 - 1 / 2 ^ 54 := by
    rw [mean_uAt_cons 54 b [] hv, mean_uAt_nil]
    have := orDD_frac 0 53
    change b.edge.frac = _ at this
    rw [this]
    ring
  refine ⟨[b], hfit, rfl, dec (k / 2 ^ 54), ?_, ?_⟩
  · have hlt : k < 2 ^ 256 := lt_of_le_of_lt hk' (by norm_num)
    have e : toU256 (countMintermF rnd b 54) = k := by
      rw [toU256, hk, Int.floor_natCast, Int.toNat_natCast]
      exact Nat.mod_eq_of_lt hlt
    have hk2 : k % 2 ^ 256 = k := Nat.mod_eq_of_lt hlt
    rw [averageValueF, hsz, avgLoopF, avgLoopF, e]
    have e2 : u256 (0 + u256 (u256 (2 ^ 0) * k)) = k := by
      rw [Nat.zero_add, pow_zero, show u256 1 = 1 by rfl, one_mul]
      unfold u256
      rw [hk2, hk2]
    have e3 : u256 (2 ^ 54) = 2 ^ 54 := Nat.mod_eq_of_lt (by norm_num)
    have e4 : ((2 ^ 54 : Nat) : ℚ) = 2 ^ 54 := by push_cast; rfl
    rw [e2, e3, e4, fdiv, if_neg (by positivity)]
    rfl
  · rw [hμ]
    exact dec_ne hd hk' hne

/-! ## `average_case_error` -/

theorem C98_average_case_error (hr : Nearest rnd) (hd : Dec100 dec) (f g : List (BDD m)) (N : Nat) (hf : Fits N f)
    (hg : Fits N g) (hlen : max f.length g.length + 1 + N ≤ 256) (e : ℚ)
    (he : e = mean N (fun x => ((|(uAt f x : Int) - uAt g x| : Int) : ℚ))) :
    ∃ q, averageCaseErrorF rnd dec .baseTwo f g = .ok q ∧ 0 ≤ q ∧
      |q - e| ≤ (N / 2 ^ 52 + 1 / 10 ^ 98) * e ∧ (N ≤ 53 → |q - e| ≤ 1 / 10 ^ 98 * e) ∧
      (q = 0 ↔ ∀ x, uAt f x = uAt g x) := by
  obtain ⟨d, hd', hl, hv⟩ := C03_absolute_difference_unsigned f g
  have hfit : Fits N d := fits_derived hf hg (fun a b => |(uval a : Int) - uval b|) hv
  have hμ : mean N (fun x => (uAt d x : ℚ)) = e := by
    rw [he]
    apply mean_congr
    intro x
    rw [← hv x]; rfl
  obtain ⟨q, h1, h2, h3, h4, h5⟩ := C98_average_value hr hd d N N hfit
    (fun b hb => supportSize_le_of_fits (hfit b hb)) (by omega)
  rw [hμ] at h3 h4
  refine ⟨q, ?_, h2, h3, h4, h5.trans ⟨fun h x => ?_, fun h x => ?_⟩⟩
  · simp only [averageCaseErrorF, hd', bind, Except.bind, h1]
  · have := hv x
    rw [h x] at this
    have h0 := abs_eq_zero.mp this.symm
    omega
  · have := hv x
    rw [h x] at this
    simpa using this

example : Fits 2 [(BDD.var 0 : BDD .id), .var 1] ∧ Fits 2 [(BDD.var 1 : BDD .id)] ∧ max 2 1 + 1 + 2 ≤ 256 ∧
    averageCaseError .baseTwo [(BDD.var 0 : BDD .id), .var 1] [.var 1] = .ok 1 := by decide +kernel

/-! ## `mean_squared_value` -/

/-- As C32: if some bit depends on all the variables. Missing for the full claim: the other functions, for which it is
false without rounding already (C32_mean_squared_value_false). -/
theorem C98_mean_squared_value_partial (hr : Nearest rnd) (hd : Dec100 dec) (f : List (BDD m)) (n N : Nat)
    (hN : Fits N f) (b : BDD m) (hb : b ∈ f) (hbn : b.supportSize = n)
    (hall : ∀ c ∈ f, ∀ v ∈ c.supportIndices, v ∈ b.supportIndices) (hlen : 2 * f.length + n ≤ 256) (e : ℚ)
    (he : e = mean N (fun x => (uAt f x : ℚ) ^ 2)) :
    ∃ q, meanSquaredValueF rnd dec f = .ok q ∧ 0 ≤ q ∧ |q - e| ≤ (n / 2 ^ 52 + 1 / 10 ^ 98) * e ∧
      (n ≤ 53 → |q - e| ≤ 1 / 10 ^ 98 * e) := by
  have hsub : ∀ c : BDD m, (∀ v ∈ c.supportIndices, v ∈ b.supportIndices) → c.supportSize ≤ n := by
    intro c hc
    rw [← hbn]
    unfold BDD.supportSize
    rw [← List.dedup_eq_self.mpr (show c.supportIndices.Nodup from List.nodup_dedup _),
      ← List.dedup_eq_self.mpr (show b.supportIndices.Nodup from List.nodup_dedup _),
      ← List.card_toFinset, ← List.card_toFinset]
    exact Finset.card_le_card (fun v hv => by simpa using hc v (by simpa using hv))
  have hmax : maxSupportSize f = n :=
    le_antisymm (maxSupportSize_le (fun c hc => hsub c (hall c hc))) (hbn ▸ supportSize_le_max hb)
  have hand : ∀ a ∈ f, ∀ c ∈ f, ∀ v ∈ (a.and c).supportIndices, v ∈ b.supportIndices := by
    intro a ha c hc v hv
    by_contra hvb
    rw [BDD.mem_supportIndices] at hv
    obtain ⟨x, hx⟩ := hv
    apply hx
    have key : ∀ d ∈ f, d.eval (Function.update x v true) = d.eval (Function.update x v false) := fun d hd' => by
      apply BDD.eval_congr
      intro w hw
      have : w ≠ v := fun e => hvb (e ▸ hall d hd' w hw)
      simp [Function.update, this]
    rw [BDD.eval_and, BDD.eval_and, key a ha, key c hc]
  have hh : ∀ a ∈ f, ∀ c ∈ f, (a.and c).edge.n.height ≤ n := fun a ha c hc =>
    (a.and c).height_le.trans (hsub _ (hand a ha c hc))
  have hμ : 0 ≤ e := he ▸ mean_nonneg N (fun x => by positivity)
  have hnq : (n : ℚ) ≤ 256 := by exact_mod_cast (show n ≤ 256 by omega)
  have hε : (n : ℚ) / 2 ^ 52 ≤ 1 / 2 := by
    rw [div_le_iff₀ (by positivity)]
    norm_num
    linarith
  obtain ⟨q, h1, h0, h2⟩ := meanSquaredValueF_spec (dec := dec) hr f n N hN hmax hh hlen (n / 2 ^ 52)
    (fun a ha c hc => countMintermF_near hr (by omega) (a.and c) (hh a ha c hc) (by omega))
  rw [← he] at h2
  obtain ⟨d1, d2, d3⟩ := dec_near hd h0 hμ (hε.trans (by norm_num)) h2
  refine ⟨dec q, h1, d3, d1, fun h53 => ?_⟩
  obtain ⟨q', h1', h0', h2'⟩ := meanSquaredValueF_spec (dec := dec) hr f n N hN hmax hh hlen 0
    (fun a ha c hc => by
      rw [countMintermF_exact hr (by omega) (a.and c) ((hh a ha c hc).trans h53), bothFrac]
      simp)
  rw [← he] at h2'
  have hq : dec q = dec q' := by
    rw [h1] at h1'
    exact Except.ok.inj h1'
  obtain ⟨d1', -, -⟩ := dec_near hd h0' hμ (by norm_num) h2'
  rw [zero_add] at d1'
  rw [hq]
  exact d1'

example : Fits 2 [(BDD.var 0 : BDD .id), (BDD.var 0).and (.var 1)] ∧
    ((BDD.var 0).and (.var 1) : BDD .id) ∈ [(BDD.var 0 : BDD .id), (BDD.var 0).and (.var 1)] ∧
    ((BDD.var 0).and (.var 1) : BDD .id).supportSize = 2 ∧
    (∀ c ∈ [(BDD.var 0 : BDD .id), (BDD.var 0).and (.var 1)], ∀ v ∈ c.supportIndices,
      v ∈ ((BDD.var 0).and (.var 1) : BDD .id).supportIndices) := by decide +kernel

/-- For all functions: the result is at least a third of the mean square, up to rounding, and not above it. Up to 53
variables it is the one of the exact computation (C32) rounded to 100 digits. -/
theorem C98_mean_squared_value_bounds_partial (hr : Nearest rnd) (hd : Dec100 dec) (f : List (BDD m)) (N : Nat)
    (hN : Fits N f) (hN' : N ≤ 1000) (hlen : 2 * f.length + maxSupportSize f ≤ 256) (e : ℚ)
    (he : e = mean N (fun x => (uAt f x : ℚ) ^ 2)) :
    ∃ q, meanSquaredValueF rnd dec f = .ok q ∧ 0 ≤ q ∧ q ≤ (1 + N / 2 ^ 52 + 1 / 10 ^ 98) * e ∧
      (1 - N / 2 ^ 52 - 1 / 10 ^ 98) * e ≤ 3 * q ∧ (q = 0 ↔ ∀ x, uAt f x = 0) ∧
      (N ≤ 53 → ∃ v, meanSquaredValue f = .ok v ∧ |q - v| ≤ v / 10 ^ 99) := by
  obtain ⟨q, h1, h0, h2, h3⟩ := meanSquaredValueF_bounds (dec := dec) hr f N hN hN' hlen
  rw [← he] at h2 h3
  have he0 : 0 ≤ e := he ▸ mean_nonneg N (fun x => by positivity)
  have hd1 := hd.near q
  rw [abs_of_nonneg h0] at hd1
  have hd2 := abs_le.mp hd1
  have hNq : (N : ℚ) / 2 ^ 52 ≤ 1 / 2 ^ 42 := by
    have : (N : ℚ) ≤ 1000 := by exact_mod_cast hN'
    have : (N : ℚ) / 2 ^ 52 ≤ 1000 / 2 ^ 52 := div_le_div_of_nonneg_right this (by norm_num)
    exact this.trans (by norm_num)
  have hN0 : (0 : ℚ) ≤ N / 2 ^ 52 := by positivity
  set ε : ℚ := (N : ℚ) / 2 ^ 52
  have hεe : ε * e ≤ 1 / 2 ^ 42 * e := mul_le_mul_of_nonneg_right hNq he0
  have hεe0 : 0 ≤ ε * e := mul_nonneg hN0 he0
  have hq2 : q ≤ 2 * e := by norm_num at hεe; linarith
  have hz : (0 : ℚ) < 1 - 1 / 10 ^ 99 := by norm_num
  have hlow : q * (1 - 1 / 10 ^ 99) ≤ dec q := by linarith [hd2.1]
  refine ⟨dec q, h1, (mul_nonneg h0 hz.le).trans hlow, ?_, ?_, ?_, fun h53 => ?_⟩
  · have : q / 10 ^ 99 ≤ 1 / 10 ^ 98 * e := by norm_num; linarith
    linarith [hd2.2]
  · have : 3 * (q / 10 ^ 99) ≤ 1 / 10 ^ 98 * e := by norm_num; linarith
    linarith [hd2.1]
  · have e0 : e = 0 ↔ ∀ x, uAt f x = 0 := by
      rw [← mean_uAt_zero N f hN]
      have hle : mean N (fun x => (uAt f x : ℚ)) ≤ e := by
        rw [he]
        apply mean_mono
        intro x
        have : uAt f x ≤ uAt f x ^ 2 := Nat.le_self_pow (by norm_num) _
        exact_mod_cast this
      have hge : 0 ≤ mean N (fun x => (uAt f x : ℚ)) := mean_nonneg N (fun x => by positivity)
      refine ⟨fun h => le_antisymm (h ▸ hle) hge, fun h => ?_⟩
      have h0 := (mean_uAt_zero N f hN).mp h
      have := mean_const N 0
      rw [he, ← this]
      apply mean_congr
      intro x
      rw [h0 x]
      simp
    rw [← e0]
    constructor
    · intro hz'
      rw [hz'] at hlow
      have : q ≤ 0 := by
        by_contra hc
        have := mul_pos (not_le.mp hc) hz
        linarith
      norm_num at hεe
      linarith
    · intro h
      rw [h] at hq2
      have : q = 0 := le_antisymm (by linarith) h0
      rw [this] at hd1 ⊢
      simpa using hd1
  · rw [meanSquaredValueF_exact hr f N hN h53] at h1
    cases hv : meanSquaredValue f with
    | error x => rw [hv] at h1; simp [Except.map] at h1
    | ok v =>
        rw [hv] at h1
        have h4 : dec v = dec q := Except.ok.inj h1
        refine ⟨v, rfl, ?_⟩
        have hv0 : 0 ≤ v := by
          have hn : maxSupportSize f ≤ N := maxSupportSize_le (fun b hb => supportSize_le_of_fits (hN b hb))
          rw [meanSquaredValue_exact f hlen (by omega)] at hv
          rw [← Except.ok.inj hv]
          positivity
        have := hd.near v
        rwa [abs_of_nonneg hv0, h4] at this

example : Fits 3 [(BDD.var 0 : BDD .id), .var 1, .var 2] ∧
    2 * [(BDD.var 0 : BDD .id), .var 1, .var 2].length + maxSupportSize [(BDD.var 0 : BDD .id), .var 1, .var 2] ≤ 256 := by
  decide +kernel

/-- The same for the error. -/
theorem C98_mean_squared_error_partial (hr : Nearest rnd) (hd : Dec100 dec) (f g : List (BDD m)) (N : Nat) (hf : Fits N f)
    (hg : Fits N g) (hlen : 2 * (max f.length g.length + 1) + N ≤ 256) (e : ℚ)
    (he : e = mean N (fun x => (((uAt f x : Int) - uAt g x : Int) : ℚ) ^ 2)) :
    ∃ q, meanSquaredErrorF rnd dec .baseTwo f g = .ok q ∧ 0 ≤ q ∧ q ≤ (1 + N / 2 ^ 52 + 1 / 10 ^ 98) * e ∧
      (1 - N / 2 ^ 52 - 1 / 10 ^ 98) * e ≤ 3 * q ∧ (q = 0 ↔ ∀ x, uAt f x = uAt g x) ∧
      (N ≤ 53 → ∃ v, meanSquaredError .baseTwo f g = .ok v ∧ |q - v| ≤ v / 10 ^ 99) := by
  obtain ⟨d, hd', hl, hv⟩ := C03_absolute_difference_unsigned f g
  have hfit : Fits N d := fits_derived hf hg (fun a b => |(uval a : Int) - uval b|) hv
  have hsz : maxSupportSize d ≤ N := maxSupportSize_le (fun b hb => supportSize_le_of_fits (hfit b hb))
  have em : e = mean N (fun x => (uAt d x : ℚ) ^ 2) := by
    rw [he]
    apply mean_congr
    intro x
    have h1 : ((uAt d x : Int) : ℚ) = ((|(uAt f x : Int) - uAt g x| : Int) : ℚ) := by rw [hv x]
    have h2 : (uAt d x : ℚ) = |(((uAt f x : Int) - uAt g x : Int) : ℚ)| := by
      rw [Int.cast_natCast] at h1
      rw [h1, Int.cast_abs]
    rw [h2, sq_abs]
  obtain ⟨q, h1, h2, h3, h4, h5, h6⟩ := C98_mean_squared_value_bounds_partial hr hd d N hfit (by omega) (by omega) e em
  refine ⟨q, ?_, h2, h3, h4, h5.trans ⟨fun h x => ?_, fun h x => ?_⟩, fun h53 => ?_⟩
  · simp only [meanSquaredErrorF, hd', bind, Except.bind, h1]
  · have := hv x
    rw [h x] at this
    have h0 := abs_eq_zero.mp this.symm
    omega
  · have := hv x
    rw [h x] at this
    simpa using this
  · obtain ⟨v, e1, e2⟩ := h6 h53
    exact ⟨v, by simp only [meanSquaredError, hd', bind, Except.bind, e1], e2⟩

example : Fits 2 [(BDD.var 0 : BDD .id), .var 1] ∧ Fits 2 [(BDD.var 1 : BDD .id)] ∧ 2 * (max 2 1 + 1) + 2 ≤ 256 ∧
    meanSquaredError .baseTwo [(BDD.var 0 : BDD .id), .var 1] [.zero, .zero] = .ok (5 / 2) := by decide +kernel

/-! ## `error_rate` -/

/-- Up to 1000 variables: the result has a relative error of at most one unit in the last place for each variable, it
is 0 for equal functions only, and it is exact up to 53 variables. -/
theorem C98_error_rate (hr : Nearest rnd) (f g : List (BDD m)) (N : Nat) (hl : f.length = g.length)
    (hf : Fits N f) (hg : Fits N g) (hN : N ≤ 1000) (e : ℚ)
    (he : e = mean N (fun x => if bitsAt f x = bitsAt g x then 0 else 1)) :
    ∃ q, errorRateF rnd f g = .ok q ∧ IsDouble q ∧ 0 ≤ q ∧ q ≤ 1 ∧ |q - e| ≤ N / 2 ^ 52 * e ∧ (N ≤ 53 → q = e) ∧
      (q = 0 ↔ f = g) := by
  by_cases hne : f = []
  · subst hne
    obtain rfl : g = [] := List.length_eq_zero_iff.mp hl.symm
    have h0 : errorRateF rnd ([] : List (BDD m)) [] = .ok 0 := by
      simp [errorRateF, miterLoop, terminalLevel, bind, Except.bind]
    have e0 : e = 0 := by simp [he, mean_const]
    exact ⟨0, h0, isDouble_zero, le_rfl, by norm_num, by simp [e0], fun _ => e0.symm, by simp⟩
  obtain ⟨q, n, r, h1, hn, hq, hfit, hv⟩ := errorRateF_spec hr f g N hl hf hg hN hne
  have hh : r.edge.n.height ≤ N := r.height_le.trans (supportSize_le_of_fits hfit)
  have hre : r.edge.frac = e := by
    rw [BDD.frac_eq_mean N r hfit, he]
    apply mean_congr
    intro x
    rw [hv x]
    by_cases h : bitsAt f x = bitsAt g x <;> simp [h, ind]
  have hp : (0 : ℚ) < 2 ^ n := by positivity
  have hnear := countMintermF_near hr hn r hh hN
  rw [hre] at hnear
  have hrg := cntF_range hr hn r.edge.n r.edge.neg
  change IsDouble (countMintermF rnd r n) ∧ 0 ≤ countMintermF rnd r n ∧ countMintermF rnd r n ≤ 2 ^ n at hrg
  have hdq : IsDouble q := by
    rw [hq, ← countMintermF_quot hr hn r (hh.trans hN)]
    refine hr.isDouble _ ?_
    rw [abs_of_nonneg (div_nonneg hrg.2.1 hp.le)]
    exact ((div_le_one hp).mpr hrg.2.2).trans (one_le_pow₀ (by norm_num))
  have hqe : |q - e| ≤ N / 2 ^ 52 * e := by
    rw [hq, show countMintermF rnd r n / 2 ^ n - e = (countMintermF rnd r n - e * 2 ^ n) / 2 ^ n by field_simp,
      abs_div, abs_of_pos hp, div_le_iff₀ hp]
    linarith
  have he0 : 0 ≤ e := he ▸ mean_nonneg N (fun x => by split <;> norm_num)
  refine ⟨q, h1, hdq, ?_, ?_, hqe, fun h53 => ?_, ?_⟩
  · rw [hq]
    exact div_nonneg hrg.2.1 hp.le
  · rw [hq]
    exact (div_le_one hp).mpr hrg.2.2
  · rw [hq, countMintermF_exact hr hn r (hh.trans h53), hre]
    field_simp
  · have hNq : (N : ℚ) ≤ 1000 := by exact_mod_cast hN
    have hε : (N : ℚ) / 2 ^ 52 ≤ 1 / 2 := by
      rw [div_le_iff₀ (by positivity)]
      norm_num
      linarith
    rw [near_zero he0 hε hqe]
    obtain ⟨q', -, hq', -, -, hz⟩ := C35_error_rate f g N hl hf hg (by omega)
    rw [← hz, hq', he]

example : ([BDD.var 0, .var 1] : List (BDD .id)).length = ([.var 1, .zero] : List (BDD .id)).length ∧
    Fits 2 [(BDD.var 0 : BDD .id), .var 1] ∧ Fits 2 [(BDD.var 1 : BDD .id), .zero] ∧
    (errorRate [(BDD.var 0 : BDD .id), .var 1] [.var 1, .zero]).toOption = some (3 / 4) := by decide +kernel

/-- Beyond 53 variables it need not be exact: it never is if an odd number of more than `2 ^ 53` inputs is wrong. -/
theorem C98_error_rate_inexact (hr : Nearest rnd) (f g : List (BDD m)) (N : Nat) (hl : f.length = g.length)
    (hf : Fits N f) (hg : Fits N g) (hN : N ≤ 1000)
    (hodd : count N (fun x => decide (bitsAt f x ≠ bitsAt g x)) % 2 = 1)
    (hbig : 2 ^ 53 < count N (fun x => decide (bitsAt f x ≠ bitsAt g x))) :
    ∃ q, errorRateF rnd f g = .ok q ∧ q ≠ mean N (fun x => if bitsAt f x = bitsAt g x then 0 else 1) := by
  obtain ⟨q, h1, h2, -⟩ := C98_error_rate hr f g N hl hf hg hN _ rfl
  refine ⟨q, h1, fun h => ?_⟩
  have : mean N (fun x => if bitsAt f x = bitsAt g x then 0 else 1) =
      (count N (fun x => decide (bitsAt f x ≠ bitsAt g x)) : ℚ) / 2 ^ N := by
    rw [← mean_ind_count N]
    apply mean_congr
    intro x
    by_cases h : bitsAt f x = bitsAt g x <;> simp [h, ind]
  rw [h, this] at h2
  exact not_isDouble_odd hodd hbig h2

/-- Such functions exist: a disjunction of 54 variables and the constant false function. So the claim of C35 does not
hold for the code as it runs. -/
theorem C98_error_rate_exact_false (hr : Nearest rnd) : ∃ f g : List (BDD Mgr.id), f.length = g.length ∧ Fits 54 f ∧
    Fits 54 g ∧ ∃ q, errorRateF rnd f g = .ok q ∧
      q ≠ mean 54 (fun x => if bitsAt f x = bitsAt g x then 0 else 1) := by
  let b : BDD Mgr.id := ⟨⟨false, orDD 0 53⟩, orDD_wf _ _⟩
  have hv : ∀ v ∈ b.supportIndices, v < 54 := fun v hv => by
    unfold BDD.supportIndices at hv
    rw [List.mem_dedup] at hv
    have := orDD_vars _ _ hv
    omega
  have hfit : Fits 54 [b] := fun c hc => by
    simp only [List.mem_singleton] at hc
    subst hc
    exact hv
  have hfit0 : Fits 54 [(BDD.zero : BDD Mgr.id)] := by decide +kernel
  have hc : count 54 (fun x => decide (bitsAt [b] x ≠ bitsAt [(BDD.zero : BDD Mgr.id)] x)) = 2 ^ 54 - 1 := by
    have e : (fun x => decide (bitsAt [b] x ≠ bitsAt [(BDD.zero : BDD Mgr.id)] x)) = b.eval := by
      funext x
      simp [bitsAt]
    rw [e]
    have h1 := mean_ind_count 54 b.eval
    rw [← BDD.frac_eq_mean 54 b hv] at h1
    have h2 := orDD_frac 0 53
    change b.edge.frac = _ at h2
    rw [h2, eq_div_iff (by positivity)] at h1
    have : (count 54 b.eval : ℚ) = ((2 ^ 54 - 1 : Nat) : ℚ) := by
      rw [← h1]
      norm_num
    exact_mod_cast this
  exact ⟨[b], [.zero], rfl, hfit, hfit0, C98_error_rate_inexact hr [b] [.zero] 54 rfl hfit hfit0 (by norm_num)
    (by rw [hc]; norm_num) (by rw [hc]; norm_num)⟩

/-! ## `average_bit_flip_error` -/

/-- Up to 1000 variables and bits: one unit in the last place for each variable and each bit, exact if the number of
bits and inputs is small, 0 for equal functions only. -/
theorem C98_average_bit_flip_error (hr : Nearest rnd) (f g : List (BDD m)) (N : Nat) (hl : f.length = g.length)
    (hf : Fits N f) (hg : Fits N g) (hN : N ≤ 1000) (hlen : f.length ≤ 1000) (e : ℚ)
    (he : e = mean N (fun x => (hamming (bitsAt f x) (bitsAt g x) : ℚ))) :
    ∃ q, averageBitFlipErrorF rnd f g = .ok q ∧ 0 ≤ q ∧ |q - e| ≤ (N + f.length) / 2 ^ 52 * e ∧
      (f.length * 2 ^ N ≤ 2 ^ 53 → N ≤ 53 → q = e) ∧ (q = 0 ↔ f = g) := by
  have hsz : maxSupportSize (f ++ g) ≤ N := maxSupportSize_le (fun b hb => by
    apply supportSize_le_of_fits
    rcases List.mem_append.mp hb with h | h
    · exact hf b h
    · exact hg b h)
  set n := maxSupportSize (f ++ g) with hn
  have hx : ∀ b ∈ xorDiff f g, b.edge.n.height ≤ N := fun b hb =>
    b.height_le.trans (supportSize_le_of_fits (fits_xorDiff f g hf hg b hb))
  have hp : (0 : ℚ) < 2 ^ n := by positivity
  obtain ⟨i1, i2, i3, i4, i5, i6⟩ := bitFlipLoopF_spec hr (n := n) (s := N) (by omega) hN f g 0 0 N 0 hx le_rfl
    (by omega) (by omega) le_rfl (by simp) (by simp) isDouble_zero (by simp) (by simp) hl
  have hsum : bitFlipSum n f g = e * 2 ^ n := by rw [he]; exact bitFlipSum_spec n N f g hl hf hg
  rw [add_zero, hsum] at i3 i4 i5 i6
  rw [hsum] at i2
  set F := bitFlipLoopF rnd n f g 0 with hF
  obtain ⟨p1, p2⟩ := rel_pos i2 (show N + f.length ≤ 2500 by omega) i5 i6
  have he0 : 0 ≤ e := he ▸ mean_nonneg N (fun x => by positivity)
  have hF0 : 0 ≤ F := by linarith
  have q1 : F = 0 ∨ e ≠ 0 := by
    by_cases hz : e = 0
    · left
      rw [hz] at p1 p2
      linarith
    · exact .inr hz
  have q2 : e ≠ 0 → 1 / 2 ^ N ≤ e := fun hz => by
    have := i4 (mul_ne_zero hz hp.ne')
    exact le_of_mul_le_mul_right this hp
  have hrel : |F / 2 ^ n - e| ≤ (N + f.length) / 2 ^ 52 * e := by
    rw [show F / 2 ^ n - e = (F - e * 2 ^ n) / 2 ^ n by field_simp, abs_div, abs_of_pos hp, div_le_iff₀ hp]
    have hc : 0 ≤ ((N + f.length : Nat) : ℚ) * (e * 2 ^ n) := mul_nonneg (by positivity) i2
    push_cast at hc i5 i6
    norm_num at i5 i6 ⊢
    rw [abs_le]
    constructor <;> linarith
  have q3 : F / 2 ^ n ≤ 2 ^ 10 := by
    rw [div_le_iff₀ hp]
    have hl' : ((0 + f.length : Nat) : ℚ) ≤ 1000 := by exact_mod_cast (by omega : 0 + f.length ≤ 1000)
    have h3 : e * 2 ^ n ≤ 1000 * 2 ^ n := i3.trans (mul_le_mul_of_nonneg_right hl' hp.le)
    have hq : ((N + f.length : Nat) : ℚ) ≤ 2000 := by exact_mod_cast (by omega : N + f.length ≤ 2000)
    have h4 := mul_le_mul_of_nonneg_left hq i2
    norm_num at i6 h4 ⊢
    linarith
  have hquot := quot_exact hr i1 hF0 hN q1 q2 (by linarith) q3
  refine ⟨F / 2 ^ n, ?_, div_nonneg hF0 hp.le, hrel, fun h53 hN53 => ?_, ?_⟩
  · rw [averageBitFlipErrorF, if_neg (by simp [hl])]
    dsimp only
    rw [pow2, if_neg (by omega)]
    simp only [bind, Except.bind, fdiv]
    rw [← hn, ← hF, if_neg hp.ne']
    simp only [hquot]
  · have := bitFlipLoopF_exact hr hsz f g 0 0 hx (by simp) (by simpa using h53) hN53 hl
    simp only [Nat.cast_zero, zero_div, zero_mul, add_zero] at this
    rw [hF, this, hsum]
    field_simp
  · have hNq : ((N : ℚ) + f.length) ≤ 2000 := by exact_mod_cast (by omega : N + f.length ≤ 2000)
    have hε : ((N : ℚ) + f.length) / 2 ^ 52 ≤ 1 / 2 := by
      rw [div_le_iff₀ (by positivity)]
      norm_num
      linarith
    rw [near_zero he0 hε hrel, he, mean_hamming_zero N f g hl hf hg]

example : ([BDD.var 0, .var 1] : List (BDD .id)).length = ([.var 1, .zero] : List (BDD .id)).length ∧
    Fits 2 [(BDD.var 0 : BDD .id), .var 1] ∧ Fits 2 [(BDD.var 1 : BDD .id), .zero] ∧ 2 * 2 ^ 2 ≤ 2 ^ 53 ∧
    (averageBitFlipError [(BDD.var 0 : BDD .id), .var 1] [.var 1, .zero]).toOption = some 1 := by decide +kernel

end Verif

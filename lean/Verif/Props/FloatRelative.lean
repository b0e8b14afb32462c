import Verif.Proofs.FloatRelative
import Verif.Props.Relative

/-!
# C117: relative errors with `double`s

`rnd` rounds to a nearest `double`, `lg` is `std::log2` and `dec` rounds to `cpp_dec_float_100`; all three are arbitrary
apart from `Nearest`, `Log2` and `Dec100`.
-/

namespace Verif

variable {m : Mgr} {rnd lg dec : ℚ → ℚ}

/-! ## Multiplication by constants -/

/-- A factor below `2^256` needs no more than the bits reserved from the rounded logarithm: the product is exact. -/
theorem C117_multiply_constant (hr : Nearest rnd) (hl : Log2 lg) (f : List (BDD m)) (c : Nat) (h : c < 2 ^ 256) :
    ∃ r, bddMultiplyConstantF rnd lg f c = .ok r ∧ ∀ x, uAt r x = uAt f x * c :=
  mulCF hr hl f c h

/-- The fractional product keeps the accuracy of C08 for every `double` factor from 1 up to below `2^256`. -/
theorem C117_multiply_fraction_partial (hr : Nearest rnd) (hl : Log2 lg) (f : List (BDD m)) (q : ℚ) (e : Nat)
    (hq : IsDouble q) (h1 : 1 ≤ q) (h2 : q < 2 ^ 256) (he : e < 64) :
    ∃ r, bddMultiplyConstantQF rnd lg f q e = .ok r ∧
      ∀ x, (uAt r x : ℚ) ≤ uAt f x * q ∧ (uAt f x : ℚ) * q ≤ uAt r x + uAt f x / 2 ^ e + e ∧
        (2 ^ e ∣ uAt f x → (∃ k : ℤ, q * 2 ^ e = k) → (uAt r x : ℚ) = uAt f x * q) := by
  obtain ⟨r, r', e1, e2, -, hv⟩ := mulQF hr hl f q e hq h1 h2 he
  obtain ⟨s, e3, hs⟩ := C08_multiply_fraction_partial f q e (by linarith) h2 he
  rw [e2, Except.ok.injEq] at e3
  subst e3
  exact ⟨r, e1, fun x => by rw [hv]; exact hs x⟩

/-- Missing in it: factors of at most a half, where a negative number is converted to `size_t`. -/
theorem C117_multiply_fraction_small_factor_ub (hl : Log2 lg) (f : List (BDD m)) (q : ℚ) (e : Nat) (h : q ≤ 1 / 2) :
    bddMultiplyConstantQF rnd lg f q e = .error .ub := by
  unfold bddMultiplyConstantQF
  split
  · rfl
  · rename_i h0
    have h1 : lg q ≤ ((-1 : ℤ) : ℚ) := hl.le q (-1) (not_le.mp h0) (by simpa using h)
    rw [if_pos]
    have := Int.ceil_le.mpr h1
    omega

/-- Missing in it: the assertion compares with the rounded limit of `uint256_t`, which is `2^256`.  That factor passes
and gives the product 0. -/
theorem C117_multiply_fraction_limit (hr : Nearest rnd) (hl : Log2 lg) (f : List (BDD m)) (e : Nat) (he : e < 64) :
    ∃ r, bddMultiplyConstantQF rnd lg f (2 ^ 256) e = .ok r ∧ ∀ x, uAt r x = 0 := by
  have h0 : ¬ (2 : ℚ) ^ 256 ≤ 0 := not_le.mpr (by positivity)
  have h1 : ((256 : ℤ) : ℚ) ≤ lg (2 ^ 256) := hl.ge _ 256 (by norm_cast)
  have h2 : ¬ ⌈lg (2 ^ 256)⌉ < 0 := by
    have : (256 : ℤ) ≤ ⌈lg (2 ^ 256)⌉ := by exact_mod_cast h1.trans (Int.le_ceil _)
    omega
  have h4 : rnd 0 = 0 := by simpa using hr.nat53 0 (by norm_num)
  obtain ⟨P, hP, h3, h5⟩ : ∃ P : ℤ, (P : ℚ) = 2 ^ 256 ∧ ⌊(2 : ℚ) ^ 256⌋ = P ∧ u256 P.toNat = 0 := by
    have : ((2 ^ 256 : ℤ) : ℚ) = 2 ^ 256 := by push_cast; rfl
    exact ⟨2 ^ 256, this, by rw [← this, Int.floor_intCast], by decide +kernel⟩
  refine ⟨List.replicate (f.length + (⌈lg (2 ^ 256)⌉.toNat + 2)) .zero, ?_, fun x => ?_⟩
  · unfold bddMultiplyConstantQF
    rw [if_neg h0, if_neg h2, if_neg (lt_irrefl _), if_neg (by omega)]
    simp only [h3, hP, sub_self, zero_mul, h4, Int.floor_zero, Int.toNat_zero, mulLoop_zero, bind, Except.bind, h5]
  · exact uAt_replicate_zero _ x

/-- A logarithm of the kind asked for exists. -/
theorem exists_log2 : ∃ lg, Log2 lg := by
  refine ⟨fun d => if d = 2 ^ Int.log 2 d then Int.log 2 d else Int.log 2 d + 1 / 2, ?_, ?_⟩
  · intro d k h
    have hd : 0 < d := lt_of_lt_of_le (zpow_pos (by norm_num) k) h
    have h1 : k ≤ Int.log 2 d := (Int.zpow_le_iff_le_log (by norm_num) hd).mp (by exact_mod_cast h)
    have h2 : (k : ℚ) ≤ Int.log 2 d := by exact_mod_cast h1
    split
    · exact h2
    · linarith
  · intro d k hd h
    have h1 : ((2 : ℕ) : ℚ) ^ Int.log 2 d ≤ d := Int.zpow_log_le_self (by norm_num) hd
    push_cast at h1
    split
    · rename_i he
      rw [he] at h
      exact_mod_cast (zpow_le_zpow_iff_right₀ (by norm_num)).mp h
    · rename_i he
      have h2 : (2 : ℚ) ^ Int.log 2 d < 2 ^ k := lt_of_lt_of_le (lt_of_le_of_ne h1 (Ne.symm he)) h
      have h3 : Int.log 2 d + 1 ≤ k := (zpow_lt_zpow_iff_right₀ (by norm_num)).mp h2
      have h4 : ((Int.log 2 d + 1 : ℤ) : ℚ) ≤ k := by exact_mod_cast h3
      push_cast at h4
      linarith

example : ∃ rnd lg, Nearest rnd ∧ Log2 lg ∧ IsDouble (5 / 4) ∧ (1 : ℚ) ≤ 5 / 4 := by
  obtain ⟨rnd, hr⟩ := exists_nearest
  obtain ⟨lg, hl⟩ := exists_log2
  exact ⟨rnd, lg, hr, hl, ⟨5, -2, by norm_num, by norm_num, by norm_num, by norm_num [zpow_neg]⟩, by norm_num⟩

/-! ## `wcre_randomized_search` -/

/-- The search stays exact: the numbers compared are whole, and the rounded counts only decide which inputs are
sampled. -/
theorem C117_wcre_randomized_search (hr : Nearest rnd) (hl : Log2 lg) (r : NumRep) (f g : List (BDD m)) (hf : f ≠ [])
    (hg : SignOk r g) (hw : NoWrap r f g) (hfl : f.length ≤ 61) (hgl : g.length ≤ 61) (readSize samples : Nat)
    (rs : Nat → Nat → Nat → Nat) (fuel c e : Nat)
    (h : wcreRandomizedSearchF rnd lg r f g readSize samples rs fuel = .ok (c, e)) :
    0 < e ∧ IsMax (relErrAt r f g) (c / e) := by
  obtain ⟨D, A, F, hp⟩ := prepare r f g hf hg hw
  simp only [wcreRandomizedSearchF, hp.abs, hp.maxOne, hp.diff, bind, Except.bind] at h
  obtain ⟨h1, h2⟩ := randomizedSearchF_sound hr hl D F hp.pos (by have := hp.lenD; omega)
    (by have := hp.lenF; omega) readSize samples rs fuel (c, e) h
  exact ⟨h1, by simpa only [hp.ratio] using h2.isMax hp.pos h1⟩

/-- It ends with at least one sample per round and random numbers that avoid 0, as long as the counts cannot overflow
(1021 variables). -/
theorem C117_wcre_randomized_search_terminates (hr : Nearest rnd) (hl : Log2 lg) (hm : m.Mono) (r : NumRep)
    (f g : List (BDD m)) (hf : f ≠ []) (hg : SignOk r g) (hw : NoWrap r f g) (hfl : f.length ≤ 61) (hgl : g.length ≤ 61)
    (n samples : Nat) (hn : n ≤ 1021) (hfN : Fits n f) (hgN : Fits n g) (hs : 1 ≤ samples) (rs : Nat → Nat → Nat → Nat)
    (hrs : ∀ j i k, rs j i k ≠ 0 ∧ rs j i k ≤ randMax) (fuel : Nat) (hfuel : 2 ^ n + 62 ≤ fuel) :
    ∃ c e, wcreRandomizedSearchF rnd lg r f g n samples rs fuel = .ok (c, e) := by
  obtain ⟨D, A, F, hp⟩ := prepare r f g hf hg hw
  obtain ⟨s, rfl⟩ : ∃ s, samples = s + 1 := ⟨samples - 1, by omega⟩
  obtain ⟨res, h⟩ := randomizedSearchF_terminates hr hl hm D F hp.pos (by have := hp.lenD; omega)
    (by have := hp.lenF; omega) n s hn (hp.fitsD hfN hgN) (hp.fitsF hfN) rs hrs fuel hfuel
  refine ⟨res.1, res.2, ?_⟩
  simp only [wcreRandomizedSearchF, hp.abs, hp.maxOne, hp.diff, bind, Except.bind, h]

/-- Without samples it runs for ever unless the error is 0 or a power of two. -/
theorem C117_wcre_randomized_search_no_samples (hr : Nearest rnd) (hl : Log2 lg) (r : NumRep) (f g : List (BDD m))
    (hf : f ≠ []) (hg : SignOk r g) (hnw : NoWrap r f g) (hfl : f.length ≤ 61) (hgl : g.length ≤ 61) (n : Nat)
    (rs : Nat → Nat → Nat → Nat) (fuel : Nat) (w : ℚ) (hw : IsMax (relErrAt r f g) w) (hw0 : w ≠ 0)
    (hw2 : ∀ k : Nat, w ≠ 2 ^ k ∧ w ≠ 1 / 2 ^ k) :
    wcreRandomizedSearchF rnd lg r f g n 0 rs fuel = .error .fuel := by
  obtain ⟨D, A, F, hp⟩ := prepare r f g hf hg hnw
  have hD : D.length ≤ 62 := by have := hp.lenD; omega
  have hF : F.length ≤ 62 := by have := hp.lenF; omega
  simp only [wcreRandomizedSearchF, hp.abs, hp.maxOne, hp.diff, bind, Except.bind]
  rcases randomizedSearchF_no_samples hr hl D F hp.pos hD hF n rs fuel with h | ⟨c, e, h, hce⟩
  · exact h
  · exfalso
    obtain ⟨h1, h2⟩ := randomizedSearchF_sound hr hl D F hp.pos hD hF n 0 rs fuel (c, e) h
    have h3 := h2.isMax hp.pos h1
    simp only [hp.ratio] at h3
    have h4 := hw.unique h3
    rcases hce with ⟨rfl, rfl⟩ | ⟨k, ⟨rfl, rfl⟩ | ⟨rfl, rfl⟩⟩
    · simp at h4; exact hw0 h4
    · push_cast at h4
      rw [div_one] at h4
      exact (hw2 k).1 h4
    · push_cast at h4
      exact (hw2 k).2 h4

example : Fits 1 [(BDD.one : BDD .id), .one, .zero] ∧ Fits 1 [(BDD.one : BDD .id), .one, .var 0] ∧ Mgr.id.Mono ∧
    (∃ rnd, Nearest rnd) ∧ (∃ lg, Log2 lg) :=
  ⟨by decide +kernel, by decide +kernel, Mgr.id_mono, exists_nearest, exists_log2⟩

/-! ## `wcre_search` -/

/-- As long as the relative error is at most `2^(52-s)` and the precision at least `2^-s`, no operation of the binary
search rounds: the result is that of exact arithmetic. -/
theorem C117_wcre_search_exact (hr : Nearest rnd) (hl : Log2 lg) (r : NumRep) (f g : List (BDD m)) (hf : f ≠ [])
    (hg : SignOk r g) (hnw : NoWrap r f g) (e s : Nat) (hs : s ≤ 52) (precision : ℚ) (hp : 1 / 2 ^ s ≤ precision)
    (hb : ∀ x, relErrAt r f g x ≤ 2 ^ (52 - s)) (fuel : Nat) :
    wcreSearchF rnd lg r f g e precision fuel = wcreSearch r f g e precision fuel := by
  obtain ⟨D, A, F, hpr⟩ := prepare r f g hf hg hnw
  simp only [wcreSearchF, wcreSearch, hpr.abs, hpr.maxOne, hpr.diff, bind, Except.bind]
  refine relativeSearchF_eq hr hl D F hpr.pos e s hs precision hp (fun x => ?_) fuel
  have h1 := hpr.relErr_ratio x
  have h2 := mul_le_mul_of_nonneg_right (hb x) (by positivity : (0 : ℚ) ≤ uAt F x)
  rw [h1, mul_comm] at h2
  exact_mod_cast h2

/-- With the default precision of 0.0001 and errors from 1 to `2^38`: the search returns, and its result is within half
of the precision or an overestimate of less than a half.  Missing: as in C43, and larger errors, see below. -/
theorem C117_wcre_search_partial (hr : Nearest rnd) (hl : Log2 lg) (r : NumRep) (f g : List (BDD m)) (hf : f ≠ [])
    (hg : SignOk r g) (hnw : NoWrap r f g) (hfl : f.length ≤ 126) (hgl : g.length ≤ 126) (e : Nat) (he : 16 ≤ e) (w : ℚ)
    (hw : IsMax (relErrAt r f g) w) (hw1 : w = 0 ∨ 1 ≤ w) (hw2 : w ≤ 2 ^ 38) (fuel : Nat) (hfuel : 143 ≤ fuel) :
    ∃ v, wcreSearchF rnd lg r f g e (1 / 10000) fuel = .ok v ∧
      (|v - w| ≤ 1 / 20000 ∨ (w ≤ v ∧ v < 3 / 2 * w)) := by
  rw [C117_wcre_search_exact hr hl r f g hf hg hnw e 14 (by norm_num) _ (by norm_num)
    (fun x => (hw.2 x).trans hw2) fuel]
  have := C43_wcre_search_partial r f g hf hg hnw hfl hgl e he (1 / 10000) (by norm_num) w hw hw1 fuel hfuel
  norm_num at this ⊢
  exact this

/-- Errors between 0 and 1 are undefined behaviour, as in C43. -/
theorem C117_wcre_search_below_one_ub (hr : Nearest rnd) (hl : Log2 lg) (r : NumRep) (f g : List (BDD m)) (hf : f ≠ [])
    (hg : SignOk r g) (hnw : NoWrap r f g) (e : Nat) (precision : ℚ) (hp0 : 1 / 2 ^ 52 ≤ precision) (hp : precision < 1)
    (w : ℚ) (hw : IsMax (relErrAt r f g) w) (hw0 : 0 < w) (hw1 : w < 1) (fuel : Nat) (hfuel : 1 ≤ fuel) :
    wcreSearchF rnd lg r f g e precision fuel = .error .ub := by
  rw [C117_wcre_search_exact hr hl r f g hf hg hnw e 52 le_rfl _ hp0 (fun x => by
    have := hw.2 x
    norm_num
    linarith) fuel]
  exact C43_wcre_search_below_one_ub r f g hf hg hnw e precision hp w hw hw0 hw1 fuel hfuel

/-- If the relative error is the same number `w > 2^t` at all inputs, `w` is no `double` and the precision is finer than
the distance of the `double`s there, the interval shrinks to two neighbouring `double`s and the search never ends. -/
theorem C117_wcre_search_runs_forever (hr : Nearest rnd) (hl : Log2 lg) (r : NumRep) (f g : List (BDD m)) (hf : f ≠ [])
    (hg : SignOk r g) (hnw : NoWrap r f g) (e : Nat) (he : 16 ≤ e) (w : ℚ) (hw : ∀ x, relErrAt r f g x = w)
    (hnd : ¬ IsDouble w) (t : Nat) (ht : 36 ≤ t) (hw1 : 2 ^ t < w) (hw2 : w < 2 ^ 127) (precision : ℚ)
    (hp : precision < 2 ^ t / 2 ^ 52) (fuel : Nat) :
    wcreSearchF rnd lg r f g e precision fuel = .error .fuel := by
  obtain ⟨D, A, F, hpr⟩ := prepare r f g hf hg hnw
  simp only [wcreSearchF, hpr.abs, hpr.maxOne, hpr.diff, bind, Except.bind]
  exact relativeSearchF_hang hr hl D F hpr.pos e he w (fun x => by rw [← hpr.relErr_ratio x, hw, mul_comm]) hnd t ht hw1 hw2
    precision hp fuel

theorem not_isDouble_third (n : Nat) : ¬ IsDouble ((3 * n + 1 : Nat) / 3 : ℚ) := by
  rintro ⟨k, e, -, he, -, h⟩
  have h1 : ((3 * n + 1 : Nat) : ℚ) * 2 ^ 1074 = 3 * (k * 2 ^ (e + 1074).toNat) := by
    have h2 : (2 : ℚ) ^ (e + 1074).toNat = 2 ^ e * 2 ^ 1074 := by
      rw [← zpow_natCast, Int.toNat_of_nonneg (by omega), zpow_add₀ (by norm_num)]
      rfl
    rw [h2, ← mul_assoc (k : ℚ), ← h]
    field_simp
  have key : ∀ (j : Nat) (a : ℤ), 3 ∣ a * 2 ^ j → 3 ∣ a := by
    intro j
    induction j with
    | zero => intro a h; simpa using h
    | succ j ih =>
      intro a h
      have := ih (a * 2) (by rwa [mul_assoc, ← pow_succ'])
      omega
  generalize (e + 1074).toNat = i, 1074 = j at h1
  have h5 := key j _ ⟨_, (by exact_mod_cast h1 : ((3 * n + 1 : Nat) : ℤ) * 2 ^ j = 3 * (k * 2 ^ i))⟩
  omega

/-- 2^40 + 2^39 + 4 as a constant function. -/
def farConstant : List (BDD Mgr.id) := [.zero, .zero, .one] ++ List.replicate 36 .zero ++ [.one, .one]

/-- Default arguments, the constants 3 and 2^40 + 2^39 + 4: the relative error is 2^39 + 1/3, exact arithmetic gives it
within the precision, `double`s never return. -/
theorem C117_wcre_search_false (hr : Nearest rnd) (hl : Log2 lg) : ∃ f g : List (BDD Mgr.id), f.length = 2 ∧ g.length = 41 ∧
    IsMax (relErrAt .baseTwo f g) (2 ^ 39 + 1 / 3) ∧
    (∀ fuel, wcreSearchF rnd lg .baseTwo f g 16 (1 / 10000) fuel = .error .fuel) ∧
    ∃ v, wcreSearch .baseTwo f g 16 (1 / 10000) 143 = .ok v ∧
      (|v - (2 ^ 39 + 1 / 3)| ≤ 1 / 20000 ∨ (2 ^ 39 + 1 / 3 ≤ v ∧ v < 3 / 2 * (2 ^ 39 + 1 / 3))) := by
  have hx : ∀ x, relErrAt .baseTwo [(BDD.one : BDD .id), .one] farConstant x = 2 ^ 39 + 1 / 3 := by
    intro x
    norm_num [relErrAt, valAt, uAt, bitsAt, uval, farConstant, List.replicate]
  have hmax : IsMax (relErrAt .baseTwo [(BDD.one : BDD .id), .one] farConstant) (2 ^ 39 + 1 / 3) :=
    ⟨⟨fun _ => false, hx _⟩, fun x => (hx x).le⟩
  refine ⟨[.one, .one], farConstant, rfl, rfl, hmax, fun fuel => ?_, ?_⟩
  · have hnd := not_isDouble_third (2 ^ 39)
    exact C117_wcre_search_runs_forever hr hl .baseTwo _ _ (by simp) (signOk_baseTwo _) (noWrap_baseTwo _ _) 16 le_rfl
      (2 ^ 39 + 1 / 3) hx (by norm_num at hnd ⊢; exact hnd) 39 (by norm_num) (by norm_num) (by norm_num) _ (by norm_num) fuel
  · obtain ⟨v, h1, h2⟩ := C43_wcre_search_partial .baseTwo _ _ (by simp) (signOk_baseTwo _) (noWrap_baseTwo _ _)
      (by simp) (by simp [farConstant]) 16 le_rfl (1 / 10000) (by norm_num) _ hmax (.inr (by norm_num)) 143 le_rfl
    exact ⟨v, h1, by norm_num at h2 ⊢; exact h2⟩

example : SignOk .twosComplement [(BDD.var 0 : BDD .id), .zero] ∧
    wcreSearch .baseTwo [(BDD.zero : BDD .id), .one, .zero] [.one, .one, .one] 16 (1 / 10000) 143 = .ok (5 / 2) :=
  ⟨by simp [SignOk], by decide +kernel⟩

/-! ## The bounds -/

/-- The bounds of the maximum of `f/max(1,g)`: the lower one is off by at most `2^-52` relatively, the upper one and, for
at most 53 bits of `g`, the lower one by at most `10^-98`. -/
theorem C117_maximum_relative_value_bounds (hr : Nearest rnd) (hd : Dec100 dec) (f g : List (BDD m)) (hf : f.length ≤ 256)
    (hg0 : g ≠ []) (hg : g.length ≤ 1022) :
    ∃ v lo hi, maximumRelativeValueBoundsF rnd dec f g = .ok v ∧
      IsMax (fun x => (uAt f x : ℚ) / (2 ^ (Nat.log 2 (max 1 (uAt g x)) + 1) - 1)) lo ∧
      IsMax (fun x => (uAt f x : ℚ) / 2 ^ Nat.log 2 (max 1 (uAt g x))) hi ∧
      |v.1 - lo| ≤ 1 / 2 ^ 52 * lo ∧ |v.2 - hi| ≤ 1 / 10 ^ 98 * hi ∧
      (g.length ≤ 53 → |v.1 - lo| ≤ 1 / 10 ^ 98 * lo) :=
  maximumRelativeValueBoundsF_near hr hd f g hf hg0 hg

theorem slack {v₁ v₂ lo hi w ε₁ ε₂ : ℚ} (hlo : lo ≤ w) (hhi : w ≤ hi) (h2 : hi ≤ 2 * lo) (h0 : 0 ≤ lo) (p1 : 0 ≤ ε₁)
    (q1 : ε₁ ≤ 1 / 2 ^ 43) (q2 : ε₂ ≤ 1 / 2 ^ 43) (n1 : |v₁ - lo| ≤ ε₁ * lo) (n2 : |v₂ - hi| ≤ ε₂ * hi) :
    v₁ ≤ (1 + ε₁) * w ∧ (1 - ε₂) * w ≤ v₂ ∧ v₂ ≤ (2 + 1 / 2 ^ 40) * v₁ := by
  have a1 := abs_le.mp n1
  have a2 := abs_le.mp n2
  refine ⟨?_, ?_, ?_⟩
  · have := mul_le_mul_of_nonneg_left hlo (by linarith : 0 ≤ 1 + ε₁)
    linarith [a1.2]
  · have : ε₂ ≤ 1 := q2.trans (by norm_num)
    have := mul_le_mul_of_nonneg_left hhi (by linarith : 0 ≤ 1 - ε₂)
    linarith [a2.1]
  · have b1 : ε₂ * hi ≤ 1 / 2 ^ 43 * (2 * lo) := mul_le_mul q2 h2 (by linarith) (by positivity)
    have b2 : ε₁ * lo ≤ 1 / 2 ^ 43 * lo := mul_le_mul_of_nonneg_right q1 h0
    have b3 : v₂ ≤ (2 + 2 / 2 ^ 43) * lo := by linarith [a2.2]
    have b4 : (1 - 1 / 2 ^ 43) * lo ≤ v₁ := by linarith [a1.1]
    have b5 := mul_le_mul_of_nonneg_left b4 (by norm_num : (0 : ℚ) ≤ 2 + 1 / 2 ^ 40)
    norm_num at b3 b5 ⊢
    linarith

/-- `wcre_bounds` encloses the worst case relative error up to that rounding, and the bounds still differ by a factor of
little more than two. -/
theorem C117_wcre_bounds (hr : Nearest rnd) (hd : Dec100 dec) (r : NumRep) (f g : List (BDD m)) (hf : f ≠ [])
    (hg : SignOk r g) (hnw : NoWrap r f g) (hfl : f.length ≤ 255) (hgl : g.length ≤ 255) (w : ℚ)
    (hw : IsMax (relErrAt r f g) w) :
    ∃ lo hi, wcreBoundsF rnd dec r f g = .ok (lo, hi) ∧ lo ≤ (1 + 1 / 2 ^ 52) * w ∧ (1 - 1 / 10 ^ 98) * w ≤ hi ∧
      hi ≤ (2 + 1 / 2 ^ 40) * lo ∧ (f.length ≤ 53 → lo ≤ (1 + 1 / 10 ^ 98) * w) := by
  obtain ⟨D, A, F, hp⟩ := prepare r f g hf hg hnw
  have hF0 : F ≠ [] := by
    intro h
    have := hp.lenF
    rw [h] at this
    exact hf (List.length_eq_zero_iff.mp this.symm)
  obtain ⟨v, lo, hi, h, ⟨⟨x, hx⟩, hlo⟩, ⟨⟨y, hy⟩, hhi⟩, n1, n2, n3⟩ := C117_maximum_relative_value_bounds hr hd D F
    (by have := hp.lenD; omega) hF0 (by have := hp.lenF; omega)
  have hb := fun x => bounds_at (uAt D x) (uAt F x) (hp.pos x)
  have hmx : ∀ x, max 1 (uAt F x) = uAt F x := fun x => max_eq_right (hp.pos x)
  simp only [hmx] at hx hlo hy hhi
  have c1 : lo ≤ w := by
    rw [← hx]
    exact (hb x).1.trans ((hp.ratio x).le.trans (hw.2 x))
  have c2 : w ≤ hi := by
    obtain ⟨z, hz⟩ := hw.1
    rw [← hz, ← hp.ratio]
    exact (hb z).2.1.trans (hhi z)
  have c3 : hi ≤ 2 * lo := by
    rw [← hy]
    exact (hb y).2.2.trans (by linarith [hlo y])
  have c0 : 0 ≤ lo := by linarith
  obtain ⟨d1, d2, d3⟩ := slack c1 c2 c3 c0 (by positivity) (by norm_num) (by norm_num) n1 n2
  refine ⟨v.1, v.2, by simp only [wcreBoundsF, hp.diff, hp.abs, hp.maxOne, bind, Except.bind, h], d1, d2, d3, fun h53 => ?_⟩
  exact (slack c1 c2 c3 c0 (by positivity) (by norm_num) (by norm_num) (n3 (hp.lenF ▸ h53)) n2).1

/-- The bounds of the mean of `f/max(1,g)` over `N` variables: the lower one is off by at most `(N+1)·2^-52`, the upper
one by little more than `N·2^-52`; with at most 53 variables and 53 bits both are off by at most `10^-95`. -/
theorem C117_average_relative_value (hr : Nearest rnd) (hd : Dec100 dec) (f g : List (BDD m)) (N : Nat) (hfN : Fits N f)
    (hgN : Fits N g) (hf : f.length + N ≤ 256) (hg0 : g ≠ []) (hg : g.length ≤ 1022) :
    ∃ v lo hi, averageRelativeValueF rnd dec f g = .ok v ∧
      lo = mean N (fun x => (uAt f x : ℚ) / (2 ^ (Nat.log 2 (max 1 (uAt g x)) + 1) - 1)) ∧
      hi = mean N (fun x => (uAt f x : ℚ) / 2 ^ Nat.log 2 (max 1 (uAt g x))) ∧
      |v.1 - lo| ≤ (N + 1) / 2 ^ 52 * lo ∧ |v.2 - hi| ≤ (N / 2 ^ 52 + 1 / 10 ^ 95) * hi ∧
      (N ≤ 53 → |v.2 - hi| ≤ 1 / 10 ^ 95 * hi ∧ (g.length ≤ 53 → |v.1 - lo| ≤ 1 / 10 ^ 95 * lo)) :=
  averageRelativeValueF_near hr hd f g N hfN hgN hf hg0 hg

/-- `acre_bounds` encloses the average relative error up to that rounding. -/
theorem C117_acre_bounds (hr : Nearest rnd) (hd : Dec100 dec) (r : NumRep) (f g : List (BDD m)) (hf : f ≠ [])
    (hg : SignOk r g) (hnw : NoWrap r f g) (N : Nat) (hfN : Fits N f) (hgN : Fits N g)
    (hl : max f.length g.length + 1 + N ≤ 256) :
    ∃ lo hi, acreBoundsF rnd dec r f g = .ok (lo, hi) ∧ lo ≤ (1 + (N + 1) / 2 ^ 52) * mean N (relErrAt r f g) ∧
      (1 - (N / 2 ^ 52 + 1 / 10 ^ 95)) * mean N (relErrAt r f g) ≤ hi ∧ hi ≤ (2 + 1 / 2 ^ 40) * lo ∧
      (N ≤ 53 → f.length ≤ 53 → lo ≤ (1 + 1 / 10 ^ 95) * mean N (relErrAt r f g) ∧
        (1 - 1 / 10 ^ 95) * mean N (relErrAt r f g) ≤ hi) := by
  obtain ⟨D, A, F, hp⟩ := prepare r f g hf hg hnw
  have hA0 : A ≠ [] := by
    intro h
    have := hp.lenA
    rw [h] at this
    exact hf (List.length_eq_zero_iff.mp this.symm)
  obtain ⟨v, lo, hi, h, hlo, hhi, n1, n2, n3⟩ := C117_average_relative_value hr hd D A N (hp.fitsD hfN hgN) (hp.fitsA hfN)
    (by have := hp.lenD; omega) hA0 (by have := hp.lenA; omega)
  have hb := fun x => bounds_at (uAt D x) (max 1 (uAt A x)) (by omega)
  have hq : ∀ x, (uAt D x : ℚ) / (max 1 (uAt A x) : Nat) = relErrAt r f g x := fun x => by rw [← hp.ratio, hp.valF]
  simp only [hq] at hb
  have c1 : lo ≤ mean N (relErrAt r f g) := hlo ▸ mean_mono N fun x => (hb x).1
  have c2 : mean N (relErrAt r f g) ≤ hi := hhi ▸ mean_mono N fun x => (hb x).2.1
  have c3 : hi ≤ 2 * lo := by
    rw [hhi, hlo, ← mean_mul_left]
    exact mean_mono N fun x => (hb x).2.2
  have c0 : 0 ≤ lo := by linarith
  have hN : (N : ℚ) ≤ 256 := by exact_mod_cast (by omega : N ≤ 256)
  have hN1 : (N + 1 : ℚ) / 2 ^ 52 ≤ 257 / 2 ^ 52 := by gcongr; linarith
  have hN2 : (N : ℚ) / 2 ^ 52 ≤ 256 / 2 ^ 52 := by gcongr
  obtain ⟨d1, d2, d3⟩ := slack c1 c2 c3 c0 (by positivity) (hN1.trans (by norm_num))
    (by norm_num at hN2 ⊢; linarith) n1 n2
  refine ⟨v.1, v.2, by simp only [acreBoundsF, hp.diff, hp.abs, bind, Except.bind, h], d1, d2, d3, fun a b => ?_⟩
  obtain ⟨n4, n5⟩ := n3 a
  obtain ⟨d4, d5, -⟩ := slack c1 c2 c3 c0 (by positivity) (by norm_num) (by norm_num) (n5 (hp.lenA ▸ b)) n4
  exact ⟨d4, d5⟩

example : Dec100 id ∧ Fits 1 [(BDD.var 0 : BDD .id), .one, .zero] ∧ Fits 1 [(BDD.var 0 : BDD .id), .one, .one] ∧
    IsMax (fun x : Asg => if x 0 then (4 / 3 : ℚ) else 2) 2 :=
  ⟨⟨fun q => by simpa using by positivity⟩, by decide +kernel, by decide +kernel,
    ⟨fun _ => false, by simp⟩, fun x => by dsimp only; split <;> norm_num⟩

/-! ## Symbolic division -/

/-- `wcre_symbolic_division`: the error cut off after `e` binary digits, up to `10^-98`. -/
theorem C117_wcre_symbolic_division (hd : Dec100 dec) (r : NumRep) (f g : List (BDD m)) (hf : f ≠ [])
    (hg : SignOk r g) (hnw : NoWrap r f g) (e : Nat) (he : max f.length g.length + 1 + e ≤ 256) (w : ℚ)
    (hw : IsMax (relErrAt r f g) w) :
    ∃ v, wcreSymbolicDivisionF dec r f g e = .ok v ∧ |v - ⌊w * 2 ^ e⌋ / 2 ^ e| ≤ 1 / 10 ^ 98 * (⌊w * 2 ^ e⌋ / 2 ^ e) := by
  obtain ⟨D, A, F, hp⟩ := prepare r f g hf hg hnw
  exact wcreSymbolicDivisionF_near hd hp e (by have := hp.lenD; omega) w hw

/-- `acre_symbolic_division`: the mean of the errors cut off after `e` binary digits, up to the rounding of
`average_value`. -/
theorem C117_acre_symbolic_division (hr : Nearest rnd) (hd : Dec100 dec) (r : NumRep) (f g : List (BDD m)) (hf : f ≠ [])
    (hg : SignOk r g) (hnw : NoWrap r f g) (e N : Nat) (hfN : Fits N f) (hgN : Fits N g)
    (hl : max f.length g.length + 3 + e + N ≤ 256) (μ : ℚ)
    (hμ : μ = mean N (fun x => (⌊relErrAt r f g x * 2 ^ e⌋ : ℚ)) / 2 ^ e) :
    ∃ v, acreSymbolicDivisionF rnd dec r f g e = .ok v ∧ |v - μ| ≤ (N / 2 ^ 52 + 1 / 10 ^ 97) * μ ∧
      (N ≤ 53 → |v - μ| ≤ 1 / 10 ^ 97 * μ) := by
  obtain ⟨D, A, F, hp⟩ := prepare r f g hf hg hnw
  rw [hμ]
  exact acreSymbolicDivisionF_near hr hd hp e N hfN hgN (by have := hp.lenD; omega)

/-- 4/3 with three binary digits, without rounding of the quotient. -/
example : wcreSymbolicDivisionF id .baseTwo [(BDD.one : BDD .id), .one, .zero] [.one, .one, .var 0] 3 =
    .ok (10 / 8) := by decide +kernel

end Verif

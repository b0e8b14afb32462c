import Verif.Proofs.Max

/-!
# C24 – C27, C29, C30: worst case error
-/

namespace Verif

variable {m : Mgr}

/-! ## C24 `get_max_value` -/

theorem C24_get_max_value (f : List (BDD m)) (h : f.length ≤ 256) : IsMax (uAt f) (getMaxValue f) :=
  getMaxValue_spec f h

/-- Beyond 256 bits the maximum is still found, but reported modulo `2^256`. -/
theorem C24_get_max_value_wraps (f : List (BDD m)) :
    ∃ M, IsMax (uAt f) M ∧ getMaxValue f = M % 2 ^ 256 := getMaxValue_mod f

/-- The bits exclude each other: the maximum is not the all-ones number. -/
example : getMaxValue [(BDD.var 0 : BDD .id), (BDD.var 0).not, .zero] = 2 := by decide +kernel

/-! ## C25 `worst_case_error` -/

theorem C25_worst_case_error_unsigned (f g : List (BDD m)) (hf : f.length ≤ 255)
    (hg : g.length ≤ 255) : ∃ w, worstCaseError .baseTwo f g = .ok w ∧
      IsMax (fun x => |(uAt f x : Int) - uAt g x|) (w : Int) :=
  worstCaseError_baseTwo f g hf hg

/-- Two's complement: the result is the maximum of the wrapped difference, … -/
theorem C25_worst_case_error_signed_wraps (f g : List (BDD m)) (hf0 : f ≠ []) (hg0 : g ≠ [])
    (hf : f.length ≤ 256) (hg : g.length ≤ 256) :
    ∃ w, worstCaseError .twosComplement f g = .ok w ∧
      IsMax (fun x => min |sAt f x - sAt g x| (2 ^ max f.length g.length - |sAt f x - sAt g x|))
        (w : Int) :=
  worstCaseError_signed f g hf0 hg0 hf hg

/-- … so it is the worst case error if and only if no difference exceeds half of the number range.
What is missing for the full claim: functions with a larger difference, for which it is false. -/
theorem C25_worst_case_error_signed_partial (f g : List (BDD m)) (hf0 : f ≠ []) (hg0 : g ≠ [])
    (hf : f.length ≤ 256) (hg : g.length ≤ 256) :
    ∃ w, worstCaseError .twosComplement f g = .ok w ∧
      (IsMax (fun x => |sAt f x - sAt g x|) (w : Int) ↔
        ∀ x, 2 * |sAt f x - sAt g x| ≤ 2 ^ max f.length g.length) := by
  obtain ⟨w, hw, ⟨y, hy⟩, hmax⟩ := worstCaseError_signed f g hf0 hg0 hf hg
  refine ⟨w, hw, fun h x => ?_, fun h => ⟨⟨y, ?_⟩, fun x => ?_⟩⟩
  · have h1 := h.2 x
    simp only at h1 hy
    omega
  · have := h y
    simp only at hy ⊢
    omega
  · have h1 := h x
    have h2 := hmax x
    simp only at h2 ⊢
    omega

/-- Counterexample: the constants 1 and -2. -/
theorem C25_worst_case_error_signed_false : ∃ f g : List (BDD m),
    f.length = g.length ∧ worstCaseError .twosComplement f g = .ok 1 ∧
      IsMax (fun x => |sAt f x - sAt g x|) 3 := by
  refine ⟨[.one, .zero], [.zero, .one], rfl, ?_, ?_⟩
  · obtain ⟨w, hw, ⟨y, hy⟩, hmax⟩ := worstCaseError_signed [(BDD.one : BDD m), .zero]
      [(BDD.zero : BDD m), .one] (by simp) (by simp) (by simp) (by simp)
    rw [hw]
    simp [sAt, tcval, uval] at hy
    congr
    omega
  · exact ⟨⟨fun _ => false, by simp [sAt, tcval, uval]⟩, fun x => by simp [sAt, tcval, uval]⟩

example : ∃ w, worstCaseError .baseTwo [(BDD.var 0 : BDD m), .var 1] [.var 1] = .ok w ∧
    IsMax (fun x => |(uAt [(BDD.var 0 : BDD m), .var 1] x : Int) - uAt [(BDD.var 1 : BDD m)] x|) (w : Int) :=
  C25_worst_case_error_unsigned _ _ (by simp) (by simp)

/-- The exactness condition of the signed case is met by real functions. -/
example : ∀ x, 2 * |sAt [(BDD.var 0 : BDD m), .zero] x - sAt [(BDD.var 1 : BDD m), .zero] x| ≤ 2 ^ 2 := by
  intro x
  simp only [sAt, bitsAt_cons, bitsAt_nil, BDD.eval_var, BDD.eval_zero]
  cases x 0 <;> cases x 1 <;> simp [tcval, uval]

/-! ## C26 metric laws -/

theorem C26_zero_iff_equal (f g : List (BDD m)) (hl : f.length = g.length) (hf : f.length ≤ 255) :
    worstCaseError .baseTwo f g = .ok 0 ↔ f = g := by
  obtain ⟨w, hw, ⟨y, hy⟩, hmax⟩ := worstCaseError_baseTwo f g hf (by omega)
  rw [hw]
  constructor
  · intro h
    cases h
    have : ∀ x, bitsAt f x = bitsAt g x := fun x => by
      apply uval_inj (by simp [hl])
      have h1 := hmax x
      have h2 : |(uAt f x : Int) - uAt g x| = 0 := le_antisymm h1 (abs_nonneg _)
      rw [abs_eq_zero] at h2
      show uAt f x = uAt g x
      omega
    apply List.ext_getElem hl
    intro i h1 h2
    apply BDD.ext_eval
    intro x
    have := congrArg (fun l => l[i]?) (this x)
    simpa [bitsAt, h1, h2] using this
  · rintro rfl
    simp at hy
    congr
    omega

theorem C26_symmetric (f g : List (BDD m)) (hf : f.length ≤ 255) (hg : g.length ≤ 255) :
    worstCaseError .baseTwo f g = worstCaseError .baseTwo g f := by
  obtain ⟨w, hw, h1⟩ := worstCaseError_baseTwo f g hf hg
  obtain ⟨w', hw', h2⟩ := worstCaseError_baseTwo g f hg hf
  have e : (fun x => |(uAt f x : Int) - uAt g x|) = fun x => |(uAt g x : Int) - uAt f x| := by
    funext x; exact abs_sub_comm _ _
  rw [e] at h1
  rw [hw, hw']
  congr
  exact_mod_cast h1.unique h2

theorem C26_triangle (f g h : List (BDD m)) (hf : f.length ≤ 255) (hg : g.length ≤ 255)
    (hh : h.length ≤ 255) : ∃ a b c, worstCaseError .baseTwo f g = .ok a ∧
      worstCaseError .baseTwo g h = .ok b ∧ worstCaseError .baseTwo f h = .ok c ∧ c ≤ a + b := by
  obtain ⟨a, ha, _, h1⟩ := worstCaseError_baseTwo f g hf hg
  obtain ⟨b, hb, _, h2⟩ := worstCaseError_baseTwo g h hg hh
  obtain ⟨c, hc, ⟨y, hy⟩, _⟩ := worstCaseError_baseTwo f h hf hh
  refine ⟨a, b, c, ha, hb, hc, ?_⟩
  have h3 := h1 y
  have h4 := h2 y
  have h5 := abs_sub_le (uAt f y : Int) (uAt g y) (uAt h y)
  simp only at h3 h4 hy
  omega

/-- In two's complement the (wrapped) worst case error is a metric as well. -/
theorem C26_metric_signed (f g h : List (BDD m)) (n : Nat) (hn : 0 < n) (hn' : n ≤ 256)
    (hf : f.length = n) (hg : g.length = n) (hh : h.length = n) :
    ∃ a b c a', worstCaseError .twosComplement f g = .ok a ∧ worstCaseError .twosComplement g h = .ok b ∧
      worstCaseError .twosComplement f h = .ok c ∧ worstCaseError .twosComplement g f = .ok a' ∧
      (a = 0 ↔ f = g) ∧ a = a' ∧ c ≤ a + b := by
  have nf : f ≠ [] := by rintro rfl; simp at hf; omega
  have ng : g ≠ [] := by rintro rfl; simp at hg; omega
  have nh : h ≠ [] := by rintro rfl; simp at hh; omega
  obtain ⟨a, ha, ⟨ya, hya⟩, h1⟩ := worstCaseError_signed f g nf ng (by omega) (by omega)
  obtain ⟨b, hb, _, h2⟩ := worstCaseError_signed g h ng nh (by omega) (by omega)
  obtain ⟨c, hc, ⟨y, hy⟩, _⟩ := worstCaseError_signed f h nf nh (by omega) (by omega)
  obtain ⟨a', ha', ⟨ya', hya'⟩, h1'⟩ := worstCaseError_signed g f ng nf (by omega) (by omega)
  rw [hf, hg, max_self] at h1 hya
  rw [hg, hh, max_self] at h2
  rw [hf, hh, max_self] at hy
  rw [hf, hg, max_self] at h1' hya'
  refine ⟨a, b, c, a', ha, hb, hc, ha', ⟨fun h0 => ?_, ?_⟩, ?_, ?_⟩
  · have : ∀ x, bitsAt f x = bitsAt g x := fun x => by
      apply uval_inj (by simp [hf, hg])
      have h3 := h1 x
      have h4 : sAt f x = (uAt f x : Int) - (if (bitsAt f x).getLast? = some true then 2 ^ n else 0) := by
        rw [← hf]; simp [sAt, tcval, uAt]
      have h5 : sAt g x = (uAt g x : Int) - (if (bitsAt g x).getLast? = some true then 2 ^ n else 0) := by
        rw [← hg]; simp [sAt, tcval, uAt]
      have h6 := uAt_lt f x
      have h7 := uAt_lt g x
      rw [hf] at h6; rw [hg] at h7
      zify at h6 h7
      have rf := sAt_bounds f x nf
      have rg := sAt_bounds g x ng
      rw [hf] at rf; rw [hg] at rg
      show uAt f x = uAt g x
      simp only [h0] at h3
      rcases abs_cases (sAt f x - sAt g x) with ⟨e, _⟩ | ⟨e, _⟩ <;> rw [e] at h3 <;>
        split at h4 <;> split at h5 <;> omega
    apply List.ext_getElem (by omega)
    intro i h3 h4
    apply BDD.ext_eval
    intro x
    have := congrArg (fun l => l[i]?) (this x)
    simpa [bitsAt, h3, h4] using this
  · rintro rfl
    simp at hya
    omega
  · have h3 := h1 ya'
    have h4 := h1' ya
    simp only [abs_sub_comm (sAt g ya'), abs_sub_comm (sAt g ya)] at h3 h4 hya hya'
    omega
  · have h3 := h1 y
    have h4 := h2 y
    have rf := sAt_bounds f y nf
    have rg := sAt_bounds g y ng
    have rh := sAt_bounds h y nh
    rw [hf] at rf; rw [hg] at rg; rw [hh] at rh
    simp only at h3 h4 hy
    rcases abs_cases (sAt f y - sAt g y) with ⟨e1, _⟩ | ⟨e1, _⟩ <;>
      rcases abs_cases (sAt g y - sAt h y) with ⟨e2, _⟩ | ⟨e2, _⟩ <;>
      rcases abs_cases (sAt f y - sAt h y) with ⟨e3, _⟩ | ⟨e3, _⟩ <;>
      rw [e1] at h3 <;> rw [e2] at h4 <;> rw [e3] at hy <;> omega

example : worstCaseError .baseTwo [(BDD.var 0 : BDD .id), .var 1] [.var 0, .zero] = .ok 2 ∧
    worstCaseError .twosComplement [(BDD.var 0 : BDD .id), .var 1] [.var 0, .zero] = .ok 2 := by
  decide +kernel

/-! ## C27 `worst_case_error_percent` -/

theorem C27_percent (f g : List (BDD m)) (hl : f.length = g.length) (h0 : f ≠ [])
    (hf : f.length ≤ 255) :
    ∃ q, worstCaseErrorPercent .baseTwo f g = .ok q ∧ 0 ≤ q ∧ q ≤ 1 ∧
      (q = 1 ↔ ∃ x, |(uAt f x : Int) - uAt g x| = 2 ^ f.length - 1) ∧
      IsMax (fun x => ((|(uAt f x : Int) - uAt g x| : Int) : ℚ) / (2 ^ f.length - 1)) q := by
  obtain ⟨w, hw, ⟨y, hy⟩, hmax⟩ := worstCaseError_baseTwo f g hf (by omega)
  have hn : 0 < f.length := List.length_pos_iff.mpr h0
  have hp : (0 : ℚ) < 2 ^ f.length - 1 := by
    have : (1 : ℚ) < 2 ^ f.length := one_lt_pow₀ (by norm_num) (by omega)
    linarith
  have hwle : (w : Int) ≤ 2 ^ f.length - 1 := by
    have h1 := uAt_lt f y
    have h2 := uAt_lt g y
    rw [← hl] at h2
    zify at h1 h2
    simp only at hy
    rw [← hy, abs_le]
    constructor <;> omega
  have hwq : (w : ℚ) ≤ 2 ^ f.length - 1 := by exact_mod_cast hwle
  refine ⟨(w : ℚ) / (2 ^ f.length - 1), ?_, by positivity, ?_, ?_, ⟨y, ?_⟩, fun x => ?_⟩
  · simp [worstCaseErrorPercent, hw, pow2, fdiv, bind, Except.bind, hp.ne',
      show ¬ 1024 ≤ f.length by omega]
  · rw [div_le_one hp]; exact hwq
  · rw [div_eq_one_iff_eq hp.ne']
    constructor
    · intro h
      refine ⟨y, hy.trans ?_⟩
      exact_mod_cast h
    · rintro ⟨x, hx⟩
      have h1 := hmax x
      simp only [hx] at h1
      have : (w : Int) = 2 ^ f.length - 1 := le_antisymm hwle h1
      exact_mod_cast this
  · simp only at hy ⊢
    rw [hy]; rfl
  · have h1 := hmax x
    simp only at h1 ⊢
    apply div_le_div_of_nonneg_right _ hp.le
    exact_mod_cast h1

/-- Empty vectors: division by zero. -/
theorem C27_percent_empty : worstCaseErrorPercent .baseTwo ([] : List (BDD m)) [] = .error .nonFinite := by
  obtain ⟨w, hw, _⟩ := worstCaseError_baseTwo ([] : List (BDD m)) [] (by simp) (by simp)
  simp [worstCaseErrorPercent, hw, pow2, fdiv, bind, Except.bind]

example : worstCaseErrorPercent .baseTwo [(BDD.var 0 : BDD .id), .var 1] [.var 0, .zero] = .ok (2 / 3) := by
  decide +kernel

/-! ## C29, C30 `approximate_worst_case_error`

`k` is the highest bit in which the vectors differ. -/


theorem C29_upper_bound_unsigned (f g : List (BDD m)) (n : Int) (hn : 1 ≤ n) (hl : f.length = g.length)
    (hf : f.length ≤ 255) : ∃ r : Nat, approximateWorstCaseError .baseTwo f g n = .ok r ∧
      ∀ x, |(uAt f x : Int) - uAt g x| ≤ r := by
  obtain ⟨w, _, hw⟩ := worstCaseError_baseTwo f g hf (by omega)
  rcases approx_baseTwo f g n hn hl hf w hw with ⟨rfl, h⟩ | ⟨k, _, _, r, hr, hwr, _⟩
  · exact ⟨0, h, by simp⟩
  · exact ⟨r, hr, fun x => le_trans (hw.2 x) hwr⟩

/-- Two's complement, provided the sign bits of the two vectors are the same function. -/
theorem C29_upper_bound_signed_partial (f g : List (BDD m)) (s : BDD m) (n : Int) (hn : 1 ≤ n)
    (hl : f.length = g.length) (hf : f.length ≤ 255) :
    ∃ r : Nat, approximateWorstCaseError .twosComplement (f ++ [s]) (g ++ [s]) n = .ok r ∧
      ∀ x, |sAt (f ++ [s]) x - sAt (g ++ [s]) x| ≤ r := by
  obtain ⟨w, _, hw⟩ := worstCaseError_baseTwo f g hf (by omega)
  have e : ∀ x, sAt (f ++ [s]) x - sAt (g ++ [s]) x = (uAt f x : Int) - uAt g x := fun x => by
    rw [sAt_append, sAt_append, hl]; ring
  simp only [e]
  rcases approx_signed f g s n hn hl hf w hw with ⟨rfl, h⟩ | ⟨k, _, _, r, hr, hwr, _⟩
  · exact ⟨0, h, by simp⟩
  · exact ⟨r, hr, fun x => le_trans (hw.2 x) hwr⟩

/-- Missing in the signed case: vectors that differ in the sign bit.  If they differ only there, the
result is 0 whatever the precision, although the functions differ by up to `2^(bits-1)`. -/
theorem C29_upper_bound_signed_false (f : List (BDD m)) (n : Int) (hn : 1 ≤ n) :
    approximateWorstCaseError .twosComplement (f ++ [.one]) (f ++ [.zero]) n = .ok 0 ∧
      ∀ x, |sAt (f ++ [.one]) x - sAt (f ++ [.zero]) x| = 2 ^ f.length := by
  constructor
  · have hz : ((f ++ [BDD.one]).zip (f ++ [BDD.zero])).reverse.drop 1 = (f.zip f).reverse := by
      rw [List.zip_append rfl]; simp
    rw [approximateWorstCaseError, if_neg (by simp; omega)]
    simp only [hz]
    rw [approxLoop_same]
    intro p hp
    rw [List.mem_reverse] at hp
    obtain ⟨i, hi, rfl⟩ := List.mem_iff_getElem.mp hp
    simp
  · intro x
    rw [sAt_append, sAt_append]
    simp

theorem C29_assertion (r : NumRep) (f g : List (BDD m)) (n : Int) (h : f.length ≠ g.length ∨ n < 1) :
    approximateWorstCaseError r f g n = .error .assertion := by
  rw [approximateWorstCaseError, if_pos h]

example : approximateWorstCaseError .baseTwo [(BDD.var 0 : BDD .id), .var 1, .var 2, .var 3]
    [.zero, .zero, .zero, .zero] 2 = .ok 15 := by decide +kernel

/-- The documented accuracy `x ≤ wc * (1 + 1/(2^(n+1)-1))` does not hold: 128 against 127 with
precision 4 gives 31 instead of 1. -/
theorem C30_tightness_false : ∃ f g : List (BDD Mgr.id), f.length = g.length ∧
    IsMax (fun x => |(uAt f x : Int) - uAt g x|) 1 ∧
    ∃ r : Nat, approximateWorstCaseError .baseTwo f g 4 = .ok r ∧
      ¬ (r : ℚ) ≤ 1 * (1 + 1 / (2 ^ (4 + 1) - 1)) := by
  refine ⟨[.zero, .zero, .zero, .zero, .zero, .zero, .zero, .one],
    [.one, .one, .one, .one, .one, .one, .one, .zero], rfl, ?_, ?_⟩
  · exact ⟨⟨fun _ => false, by simp [uAt, uval]⟩, fun x => by simp [uAt, uval]⟩
  · exact ⟨31, by decide +kernel, by norm_num⟩

/-- The accuracy that does hold: if `k` is the highest bit in which the vectors differ, the result
exceeds the worst case error by at most `2^(k+2-n) - 2`, and it is exact if `n > k`. -/
theorem C30_tightness_partial (f g : List (BDD m)) (n : Int) (hn : 1 ≤ n) (hl : f.length = g.length)
    (hf : f.length ≤ 255) (w : Int) (hw : IsMax (fun x => |(uAt f x : Int) - uAt g x|) w)
    (k : Nat) (hk : f[k]? ≠ g[k]?) (hj : ∀ j, k < j → f[j]? = g[j]?) :
    ∃ r : Nat, approximateWorstCaseError .baseTwo f g n = .ok r ∧
      w ≤ r ∧ (r : Int) ≤ w + 2 ^ (k + 1 - n.toNat + 1) - 2 ∧ (k < n → (r : Int) = w) := by
  obtain ⟨r, hr, h1, h2⟩ := approx_baseTwo_at f g n hn hl hf w hw k hk hj
  refine ⟨r, hr, h1, h2, fun hkn => ?_⟩
  have : k + 1 - n.toNat = 0 := by omega
  rw [this] at h2
  omega

/-- Vectors that differ in bit 2 at most. -/
example : [(BDD.var 0 : BDD .id), .var 1, .var 2, .var 3][2]? ≠ [(BDD.one : BDD .id), .zero, .zero, .var 3][2]? ∧
    approximateWorstCaseError .baseTwo [(BDD.var 0 : BDD .id), .var 1, .var 2, .var 3]
      [.one, .zero, .zero, .var 3] 3 = .ok 6 ∧
    approximateWorstCaseError .baseTwo [(BDD.var 0 : BDD .id), .var 1, .var 2, .var 3]
      [.one, .zero, .zero, .var 3] 1 = .ok 7 := by
  refine ⟨fun h => ?_, by decide +kernel, by decide +kernel⟩
  have := congrArg (Option.map BDD.edge) h
  revert this
  decide +kernel

end Verif

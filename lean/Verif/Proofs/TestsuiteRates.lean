import Verif.Proofs.Testsuite
import Verif.Proofs.RelSearch
import Verif.Props.FloatMetrics

/-! # Lemmas for the tests: the loops of the error rate tests, the search on constant functions -/

namespace Verif

variable {m : Mgr} {rnd : ℚ → ℚ}

theorem fits_eval {b : BDD m} {N : Nat} (h : ∀ x y : Asg, (∀ v < N, x v = y v) → b.eval x = b.eval y) :
    Fits N [b] := by
  intro b' hb v hv
  rw [List.mem_singleton] at hb
  subst hb
  by_contra hN
  rw [BDD.mem_supportIndices] at hv
  obtain ⟨x, hx⟩ := hv
  apply hx
  apply h
  intro w hw
  have hne : w ≠ v := by omega
  simp [hne]

theorem requireRate_eq (hr : Nearest rnd) (f g : BDD m) (N : Nat) (hN : N ≤ 53) (hf : Fits N [f]) (hg : Fits N [g])
    (q : ℚ) : requireRate rnd f g q =
      .ok (decide (q = mean N (fun x => if f.eval x = g.eval x then 0 else 1))) := by
  obtain ⟨e, h1, -, -, -, -, h2, -⟩ := C98_error_rate hr [f] [g] N rfl hf hg (by omega) _ rfl
  unfold requireRate
  rw [h1, h2 hN]
  simp [bitsAt, bind, Except.bind]

theorem expectedError_eq (hr : Nearest rnd) (i n : Nat) (hn : n ≤ 53) (hi : i < n) :
    expectedError rnd i n = .ok ((2 ^ (i + 1) - 1) / 2 ^ n) := by
  unfold expectedError
  rw [if_pos (by omega)]
  have h1 : (2 : ℚ) ^ (i + 1) - 1 = ((2 ^ (i + 1) - 1 : Nat) : ℚ) := by
    rw [Nat.cast_sub Nat.one_le_two_pow]; push_cast; ring
  have hp : 2 ^ (i + 1) - 1 ≤ 2 ^ 53 := (Nat.sub_le _ _).trans (Nat.pow_le_pow_right (by norm_num) (by omega))
  have big : (2 : ℚ) ^ 53 ≤ 2 ^ 1023 := pow_le_pow_right₀ (by norm_num) (by norm_num)
  have hle : ((2 ^ (i + 1) - 1 : Nat) : ℚ) ≤ 2 ^ 53 := by exact_mod_cast hp
  have hpn : (2 : ℚ) ^ n ≤ 2 ^ 53 := pow_le_pow_right₀ (by norm_num) hn
  have e1 : rnd ((2 ^ (i + 1) - 1 : Nat) : ℚ) = ((2 ^ (i + 1) - 1 : Nat) : ℚ) :=
    hr.exact (isDouble_nat _ hp) (by rw [abs_of_nonneg (Nat.cast_nonneg _)]; exact hle.trans big)
  have e2 : rnd (2 ^ n) = 2 ^ n :=
    hr.exact (isDouble_two_pow (by omega)) (by
      rw [abs_of_nonneg (pow_nonneg (by norm_num) _)]; exact hpn.trans big)
  have hq : ((2 ^ (i + 1) - 1 : Nat) : ℚ) / 2 ^ n ≤ 2 ^ 53 :=
    (div_le_self (Nat.cast_nonneg _) (one_le_pow₀ (by norm_num))).trans hle
  have e3 : rnd (((2 ^ (i + 1) - 1 : Nat) : ℚ) / 2 ^ n) = ((2 ^ (i + 1) - 1 : Nat) : ℚ) / 2 ^ n :=
    hr.exact (isDouble_nat_div _ _ hp (by omega)) (by
      rw [abs_of_nonneg (div_nonneg (Nat.cast_nonneg _) (pow_nonneg (by norm_num) _))]; exact hq.trans big)
  rw [h1, e1, e2, e3]

theorem smallest_eq (hr : Nearest rnd) (n : Nat) (hn : n ≤ 53) : rnd (1 / rnd (2 ^ n)) = 1 / 2 ^ n := by
  have big : (2 : ℚ) ^ 53 ≤ 2 ^ 1023 := pow_le_pow_right₀ (by norm_num) (by norm_num)
  have hpn : (2 : ℚ) ^ n ≤ 2 ^ 53 := pow_le_pow_right₀ (by norm_num) hn
  have e2 : rnd (2 ^ n) = 2 ^ n :=
    hr.exact (isDouble_two_pow (by omega)) (by
      rw [abs_of_nonneg (pow_nonneg (by norm_num) _)]; exact hpn.trans big)
  rw [e2]
  have h := isDouble_nat_div 1 n (by norm_num) (by omega)
  rw [Nat.cast_one] at h
  refine hr.exact' h (div_nonneg (by norm_num) (pow_nonneg (by norm_num) _)) ?_
  exact (div_le_self (by norm_num) (one_le_pow₀ (by norm_num))).trans (by norm_num)

theorem foldl_or_eval (l : List Nat) (b : BDD m) (x : Asg) :
    (l.foldl (fun b i => b.or (.var i)) b).eval x = true ↔ b.eval x = true ∨ ∃ v ∈ l, x v = true := by
  induction l generalizing b with
  | nil => simp
  | cons a l ih => rw [List.foldl_cons, ih]; simp [or_assoc]

theorem foldl_and_eval (l : List Nat) (b : BDD m) (x : Asg) :
    (l.foldl (fun b i => b.and (.var i)) b).eval x = true ↔ b.eval x = true ∧ ∀ v ∈ l, x v = true := by
  induction l generalizing b with
  | nil => simp
  | cons a l ih => rw [List.foldl_cons, ih]; simp [and_assoc]

theorem foldl_andNot_eval (l : List Nat) (b : BDD m) (x : Asg) :
    (l.foldl (fun b i => b.and (BDD.var i).not) b).eval x = true ↔ b.eval x = true ∧ ∀ v ∈ l, x v = false := by
  induction l generalizing b with
  | nil => simp
  | cons a l ih => rw [List.foldl_cons, ih]; simp [and_assoc]

theorem cubeOf_var (i : Nat) : CubeOf (BDD.var i : BDD m) {i} (fun _ => true) := fun x => by simp
theorem cubeOf_notVar (i : Nat) : CubeOf (BDD.var i : BDD m).not {i} (fun _ => false) := fun x => by simp

theorem constrain_var (f : BDD m) (i : Nat) (x : Asg) :
    (constrain f (.var i)).eval x = f.eval (Function.update x i true) := by
  rw [constrain_cube (cubeOf_var i)]
  congr 1
  funext w
  by_cases h : w = i <;> simp [setOn, h]

theorem constrain_notVar (f : BDD m) (i : Nat) (x : Asg) :
    (constrain f (BDD.var i).not).eval x = f.eval (Function.update x i false) := by
  rw [constrain_cube (cubeOf_notVar i)]
  congr 1
  funext w
  by_cases h : w = i <;> simp [setOn, h]

/-- `f` is the disjunction of the variables `k … n-1`. -/
def OrFrom (k n : Nat) (f : BDD m) : Prop := ∀ x, f.eval x = true ↔ ∃ v, k ≤ v ∧ v < n ∧ x v = true
/-- `f` is the conjunction of the variables `k … n-1`. -/
def AndFrom (k n : Nat) (f : BDD m) : Prop := ∀ x, f.eval x = true ↔ ∀ v, k ≤ v → v < n → x v = true

theorem bool_eq_of_iff {a b : Bool} (h : a = true ↔ b = true) : a = b := by cases a <;> cases b <;> simp_all

theorem OrFrom.fits {k n : Nat} {f : BDD m} (h : OrFrom k n f) : Fits n [f] :=
  fits_eval fun x y hxy => bool_eq_of_iff (by
    rw [h, h]
    refine exists_congr fun v => ⟨fun ⟨a, b, c⟩ => ⟨a, b, ?_⟩, fun ⟨a, b, c⟩ => ⟨a, b, ?_⟩⟩
    · rw [← hxy v b]; exact c
    · rw [hxy v b]; exact c)

theorem AndFrom.fits {k n : Nat} {f : BDD m} (h : AndFrom k n f) : Fits n [f] :=
  fits_eval fun x y hxy => bool_eq_of_iff (by
    rw [h, h]
    refine forall_congr' fun v => imp_congr_right fun _ => forall_congr' fun b => ?_
    rw [hxy v b])

theorem OrFrom.next {k n : Nat} {f : BDD m} (h : OrFrom k n f) : OrFrom (k + 1) n (constrain f (BDD.var k).not) := by
  intro x
  rw [constrain_notVar, h]
  constructor
  · rintro ⟨v, h1, h2, h3⟩
    have hne : v ≠ k := by rintro rfl; simp at h3
    rw [Function.update_of_ne hne] at h3
    exact ⟨v, by omega, h2, h3⟩
  · rintro ⟨v, h1, h2, h3⟩
    have hne : v ≠ k := by omega
    exact ⟨v, by omega, h2, by rw [Function.update_of_ne hne]; exact h3⟩

theorem AndFrom.next {k n : Nat} {f : BDD m} (h : AndFrom k n f) : AndFrom (k + 1) n (constrain f (.var k)) := by
  intro x
  rw [constrain_var, h]
  constructor
  · intro h1 v hv hn
    have hne : v ≠ k := by omega
    have := h1 v (by omega) hn
    rwa [Function.update_of_ne hne] at this
  · intro h1 v hv hn
    by_cases hne : v = k
    · subst hne; simp
    · rw [Function.update_of_ne hne]
      exact h1 v (by omega) hn

/-- Dropping the first `k` disjuncts -/
theorem rate_or (k n : Nat) (hk : k ≤ n) {f g : BDD m} (hf : OrFrom 0 n f) (hg : OrFrom k n g) :
    mean n (fun x => if f.eval x = g.eval x then 0 else 1) = (2 ^ k - 1) / 2 ^ n := by
  rw [← mean_rest n k hk false]
  apply mean_congr
  intro x
  have h1 : f.eval x = true ↔ ¬ ∀ v < n, x v = false := by
    rw [hf]; push Not
    exact ⟨fun ⟨v, _, a, b⟩ => ⟨v, a, by simp [b]⟩, fun ⟨v, a, b⟩ => ⟨v, Nat.zero_le _, a, by simpa using b⟩⟩
  have h2 : g.eval x = true ↔ ¬ ∀ v, k ≤ v → v < n → x v = false := by
    rw [hg]; push Not
    exact ⟨fun ⟨v, c, a, b⟩ => ⟨v, c, a, by simp [b]⟩, fun ⟨v, c, a, b⟩ => ⟨v, c, a, by simpa using b⟩⟩
  by_cases hA : ∀ v, k ≤ v → v < n → x v = false
  · have hg' : g.eval x = false := by
      by_contra hc; exact (h2.mp (by simpa using hc)) hA
    by_cases hB : ∀ v < n, x v = false
    · have hf' : f.eval x = false := by
        by_contra hc; exact (h1.mp (by simpa using hc)) hB
      rw [if_pos (by rw [hf', hg']), if_neg (by tauto)]
    · rw [if_neg (by rw [h1.mpr hB, hg']; simp), if_pos ⟨hA, hB⟩]
  · have hB : ¬ ∀ v < n, x v = false := fun h => hA (fun v _ hv => h v hv)
    rw [if_pos (by rw [h1.mpr hB, h2.mpr hA]), if_neg (by tauto)]

/-- Dropping the first `k` conjuncts -/
theorem rate_and (k n : Nat) (hk : k ≤ n) {f g : BDD m} (hf : AndFrom 0 n f) (hg : AndFrom k n g) :
    mean n (fun x => if f.eval x = g.eval x then 0 else 1) = (2 ^ k - 1) / 2 ^ n := by
  rw [← mean_rest n k hk true]
  apply mean_congr
  intro x
  have h1 : f.eval x = true ↔ ∀ v < n, x v = true := by
    rw [hf]; exact ⟨fun h v a => h v (Nat.zero_le _) a, fun h v _ a => h v a⟩
  have h2 := hg x
  by_cases hA : ∀ v, k ≤ v → v < n → x v = true
  · by_cases hB : ∀ v < n, x v = true
    · rw [if_pos (by rw [h1.mpr hB, h2.mpr hA]), if_neg (by tauto)]
    · have hf' : f.eval x = false := by
        by_contra hc; exact hB (h1.mp (by simpa using hc))
      rw [if_neg (by rw [hf', h2.mpr hA]; simp), if_pos ⟨hA, hB⟩]
  · have hB : ¬ ∀ v < n, x v = true := fun h => hA (fun v _ hv => h v hv)
    have hf' : f.eval x = false := by
      by_contra hc; exact hB (h1.mp (by simpa using hc))
    have hg' : g.eval x = false := by
      by_contra hc; exact hA (h2.mp (by simpa using hc))
    rw [if_pos (by rw [hf', hg']), if_neg (by tauto)]

/-- A disjunction and the constant 1 -/
theorem rate_or_one (n : Nat) {f g : BDD m} (hf : OrFrom 0 n f) (hg : ∀ x, g.eval x = true) :
    mean n (fun x => if f.eval x = g.eval x then 0 else 1) = 1 / 2 ^ n := by
  have h2 := mean_all n false (Finset.range n) (fun v hv => Finset.mem_range.mp hv)
  rw [Finset.card_range] at h2
  rw [← h2]
  apply mean_congr
  intro x
  rw [hg]
  by_cases hB : ∀ v ∈ Finset.range n, x v = false
  · rw [if_pos hB, if_neg]
    rw [hf]
    rintro ⟨v, -, a, b⟩
    rw [hB v (Finset.mem_range.mpr a)] at b
    cases b
  · rw [if_neg hB, if_pos]
    rw [hf]
    push Not at hB
    obtain ⟨v, a, b⟩ := hB
    exact ⟨v, Nat.zero_le _, Finset.mem_range.mp a, by simpa using b⟩

theorem ok_bind' {α β : Type} (a : α) (k : α → Except Fault β) : (Except.ok a >>= k) = k a := rfl

theorem orTestLoop_ok (hr : Nearest rnd) (n : Nat) (hn : n ≤ 53) (orB : BDD m) (h : OrFrom 0 n orB) :
    ∀ (k i : Nat) (pos neg : BDD m), i + k = n → (pos = orB ∨ ∀ x, pos.eval x = true) → OrFrom i n neg →
    ∃ l, orTestLoop rnd n orB k i pos neg = .ok l ∧ l.length = 2 * k ∧ ∀ c ∈ l, c = true := by
  intro k
  induction k with
  | zero => exact fun i pos neg _ _ _ => ⟨[], rfl, rfl, by simp⟩
  | succ k ih =>
    intro i pos neg hk hpos hneg
    have hp : ∀ x, (constrain pos (.var i)).eval x = true := fun x => by
      rw [constrain_var]
      rcases hpos with rfl | h'
      · rw [h]; exact ⟨i, Nat.zero_le _, by omega, by simp⟩
      · exact h' _
    have hpf : Fits n [constrain pos (.var i)] := fits_eval fun x y _ => by rw [hp, hp]
    obtain ⟨l, hl, hlen, hall⟩ := ih (i + 1) (constrain pos (.var i))
      (constrain neg (BDD.var i).not) (by omega) (.inr hp) hneg.next
    refine ⟨true :: true :: l, ?_, by simp [hlen]; omega, by simpa using hall⟩
    have e1 := expectedError_eq hr i n hn (by omega)
    have e2 := requireRate_eq hr orB _ n hn h.fits hneg.next.fits ((2 ^ (i + 1) - 1) / 2 ^ n)
    rw [rate_or (i + 1) n (by omega) h hneg.next, decide_eq_true rfl] at e2
    have e3 := requireRate_eq hr orB _ n hn h.fits hpf (1 / 2 ^ n)
    rw [rate_or_one n h hp, decide_eq_true rfl] at e3
    rw [← smallest_eq hr n hn] at e3
    rw [orTestLoop]
    generalize constrain pos (.var i) = pos' at *
    generalize constrain neg (BDD.var i).not = neg' at *
    rw [e1, ok_bind', e2, ok_bind', e3, ok_bind', hl, ok_bind']

theorem andTestLoop_ok (hr : Nearest rnd) (n : Nat) (hn : n ≤ 53) (andB : BDD m) (h : AndFrom 0 n andB) :
    ∀ (k i : Nat) (pos : BDD m), i + k = n → AndFrom i n pos →
    ∃ l, andTestLoop rnd n andB k i pos = .ok l ∧ l.length = 2 * k ∧ ∀ c ∈ l, c = true := by
  intro k
  induction k with
  | zero => exact fun i pos _ _ => ⟨[], rfl, rfl, by simp⟩
  | succ k ih =>
    intro i pos hk hpos
    have hneg : AndFrom (i + 1) n (constrain (constrain pos (.var i)) (BDD.var i).not) := fun x => by
      rw [constrain_notVar, hpos.next]
      refine forall_congr' fun v => imp_congr_right fun hv => imp_congr_right fun _ => ?_
      have hne : v ≠ i := by omega
      rw [Function.update_of_ne hne]
    obtain ⟨l, hl, hlen, hall⟩ := ih (i + 1) (constrain pos (.var i)) (by omega) hpos.next
    refine ⟨true :: true :: l, ?_, by simp [hlen]; omega, by simpa using hall⟩
    have e1 := expectedError_eq hr i n hn (by omega)
    have e2 := requireRate_eq hr andB _ n hn h.fits hpos.next.fits ((2 ^ (i + 1) - 1) / 2 ^ n)
    rw [rate_and (i + 1) n (by omega) h hpos.next, decide_eq_true rfl] at e2
    have e3 := requireRate_eq hr andB _ n hn h.fits hneg.fits ((2 ^ (i + 1) - 1) / 2 ^ n)
    rw [rate_and (i + 1) n (by omega) h hneg, decide_eq_true rfl] at e3
    rw [andTestLoop]
    rw [e1, ok_bind', e2, ok_bind', e3, ok_bind', hl, ok_bind']

/-! ## `wcre_search` on constant functions -/

theorem eval_const_one {b : BDD m} (h : ∀ x, b.eval x = true) : b = .one := BDD.ext_eval (fun x => by rw [h]; rfl)

theorem map_and_one (f : List (BDD m)) : f.map (·.and .one) = f := by
  conv_rhs => rw [← List.map_id f]
  apply List.map_congr_left
  intro b _
  apply BDD.ext_eval
  intro x
  simp

/-- Bisection with whole numbers: an interval of length `2^t` around the whole number `w`. -/
theorem bisectLoop_const (D F : List (BDD m)) (d f w : Nat) (hD : ∀ x, uAt D x = d) (hF : ∀ x, uAt F x = f)
    (hf : 0 < f) (hw : d = w * f) (precision : ℚ) (hp : precision < 2) :
    ∀ (fuel t a : Nat), t < fuel → a * 2 ^ t < w → w < (a + 1) * 2 ^ t → (a + 1) * 2 ^ t < 2 ^ 256 →
    bisectLoop D F precision fuel ((a * 2 ^ t : Nat) : ℚ) (((a + 1) * 2 ^ t : Nat) : ℚ) .one = .ok w
  | 0, t, a, h, _, _, _ => absurd h (by omega)
  | fuel + 1, t, a, ht, h1, h2, h3 => by
    obtain ⟨s, rfl⟩ : ∃ s, t = s + 1 := by
      rcases Nat.eq_zero_or_pos t with rfl | h
      · simp at h1 h2; omega
      · exact ⟨t - 1, by omega⟩
    unfold bisectLoop
    have hgap : (((a + 1) * 2 ^ (s + 1) : Nat) : ℚ) - ((a * 2 ^ (s + 1) : Nat) : ℚ) = 2 ^ (s + 1) := by
      push_cast; ring
    have hgap2 : (2 : ℚ) ≤ 2 ^ (s + 1) := by
      rw [pow_succ]
      have := one_le_pow₀ (n := s) (show (1 : ℚ) ≤ 2 by norm_num)
      linarith
    rw [if_pos (by rw [hgap]; exact lt_of_lt_of_le hp hgap2)]
    have hmid : ((((a * 2 ^ (s + 1) : Nat) : ℚ) + (((a + 1) * 2 ^ (s + 1) : Nat) : ℚ)) / 2) =
        (((2 * a + 1) * 2 ^ s : Nat) : ℚ) := by
      push_cast; rw [pow_succ]; ring
    rw [hmid, map_and_one, map_and_one]
    have hc1 : (2 * a + 1) * 2 ^ s < 2 ^ 256 := by
      refine lt_of_le_of_lt ?_ h3
      rw [pow_succ]
      nlinarith [Nat.one_le_two_pow (n := s)]
    obtain ⟨r, hr, hv⟩ := mulQ_nat F ((2 * a + 1) * 2 ^ s) 16 (by positivity) hc1 (by norm_num)
    have hcases := existsGreaterEquals_cases D r
    simp only [hr, bind, Except.bind]
    simp only [hv, hD, hF] at hcases
    rcases hcases with ⟨⟨x, hx⟩, h⟩ | ⟨hle, ⟨⟨x, hx⟩, h⟩ | ⟨hne, h⟩⟩
    · rw [h]
      simp only [Bool.false_eq_true, if_false, if_true]
      have hg : greaterThan D r = .one := eval_const_one fun y => by
        rw [greaterThan_eval, decide_eq_true_eq, hv, hD, hF]; exact hx
      rw [hg]
      have hx' : (2 * a + 1) * 2 ^ s < w := by
        have hx2 : (2 * a + 1) * 2 ^ s * f < w * f := by rw [← hw, Nat.mul_comm _ f]; exact hx
        exact Nat.lt_of_mul_lt_mul_right hx2
      have := bisectLoop_const D F d f w hD hF hf hw precision hp fuel s (2 * a + 1) (by omega) hx'
        (by rw [pow_succ] at h2; nlinarith) (by rw [pow_succ] at h3; nlinarith)
      have e : (a + 1) * 2 ^ (s + 1) = (2 * a + 1 + 1) * 2 ^ s := by rw [pow_succ]; ring
      rw [e]
      exact this
    · rw [h]
      simp only [if_true]
      congr 1
      have : w * f = (2 * a + 1) * 2 ^ s * f := by rw [← hw, hx]; ring
      rw [Nat.eq_of_mul_eq_mul_right hf this]
    · rw [h]
      simp only [Bool.false_eq_true, if_false]
      have hlt : w < (2 * a + 1) * 2 ^ s := by
        have h5 := hle (fun _ => false)
        have h6 : d ≠ f * ((2 * a + 1) * 2 ^ s) := fun he => hne ⟨fun _ => false, he⟩
        have h7 := lt_of_le_of_ne h5 h6
        rw [hw, Nat.mul_comm f] at h7
        exact Nat.lt_of_mul_lt_mul_right h7
      have := bisectLoop_const D F d f w hD hF hf hw precision hp fuel s (2 * a) (by omega)
        (by rw [pow_succ] at h1; nlinarith) hlt hc1
      have e : a * 2 ^ (s + 1) = 2 * a * 2 ^ s := by rw [pow_succ]; ring
      rw [e]
      exact this

/-- Constant functions with a whole quotient: the search returns the quotient. -/
theorem relativeSearch_const (D F : List (BDD m)) (d f w k : Nat) (hD : ∀ x, uAt D x = d) (hF : ∀ x, uAt F x = f)
    (hf : 0 < f) (hw : d = w * f) (hDl : D.length ≤ 127) (precision : ℚ) (hp : precision < 2) (fuel : Nat)
    (hfuel : 128 ≤ fuel) : relativeSearch D F k precision fuel = .ok w := by
  unfold relativeSearch
  by_cases hz : D.all (·.isZero) = true
  · rw [if_pos hz]
    rw [all_isZero_iff] at hz
    have h0 := hz (fun _ => false)
    rw [hD, hw] at h0
    have : w = 0 := (Nat.mul_eq_zero.mp h0).resolve_right (by omega)
    rw [this]; simp
  · rw [if_neg hz]
    have hw0 : w ≠ 0 := by
      rintro rfl
      rw [all_isZero_iff] at hz
      exact hz (fun x => by rw [hD, hw, Nat.zero_mul])
    have hD' : ∀ x, uAt (List.replicate k BDD.zero ++ D) x = d * 2 ^ k := fun x => by rw [uAt_shifted, hD]
    have hF' : ∀ x, uAt (List.replicate k BDD.zero ++ F) x = f * 2 ^ k := fun x => by rw [uAt_shifted, hF]
    have hp2 : 0 < 2 ^ k := Nat.two_pow_pos k
    have hfp : 0 < f * 2 ^ k := Nat.mul_pos hf hp2
    have hd127 : d < 2 ^ 127 := by
      have := uAt_lt' hDl (fun _ => false); rwa [hD] at this
    have hww : d * 2 ^ k = w * (f * 2 ^ k) := by rw [hw]; ring
    have hb : ∀ x, uAt (List.replicate k BDD.zero ++ D) x < uAt (List.replicate k BDD.zero ++ F) x * 2 ^ 127 := by
      intro x
      rw [hD', hF']
      calc d * 2 ^ k < 2 ^ 127 * 2 ^ k := Nat.mul_lt_mul_of_pos_right hd127 hp2
        _ ≤ f * 2 ^ k * 2 ^ 127 := by
          rw [Nat.mul_comm]
          exact Nat.mul_le_mul_right _ (Nat.le_mul_of_pos_left _ hf)
    rcases factorLoop_spec _ _ (fun x => by rw [hF']; exact hfp) hb 128 0 rfl (by omega) with
      ⟨j, h, hmax⟩ | ⟨-, h, hlt⟩ | ⟨j, lg, hj, h, hlg, ⟨x, hx⟩, hlt⟩
    · simp only [h, bind, Except.bind]
      congr 1
      obtain ⟨⟨y, hy⟩, -⟩ := hmax
      rw [hD', hF', hww] at hy
      have : w * (f * 2 ^ k) = 2 ^ j * (f * 2 ^ k) := by linarith [hy]
      rw [Nat.eq_of_mul_eq_mul_right hfp this]
      push_cast; rfl
    · have := hlt (fun _ => false)
      rw [hD', hF', hww] at this
      exact absurd this (by
        have : 1 * (f * 2 ^ k) ≤ w * (f * 2 ^ k) := Nat.mul_le_mul_right _ (by omega)
        omega)
    · simp only [h, bind, Except.bind]
      have h1 : ∀ y, lg.eval y = true := fun y => by
        rw [hlg, hD', hF']
        have := (hlg x).mp hx
        rwa [hD', hF'] at this
      rw [eval_const_one h1]
      have e1 : 2 ^ j < w := by
        have := (hlg x).mp hx
        rw [hD', hF', hww, Nat.mul_comm (f * 2 ^ k)] at this
        exact Nat.lt_of_mul_lt_mul_right this
      have e2 : w < 2 ^ (j + 1) := by
        have := hlt x
        rw [hD', hF', hww, Nat.mul_comm (f * 2 ^ k)] at this
        exact Nat.lt_of_mul_lt_mul_right this
      have := bisectLoop_const _ _ _ _ w hD' hF' hfp hww precision hp fuel j 1 (by omega) (by simpa using e1)
        (by rw [pow_succ] at e2; omega)
        (by
          have : (2 : Nat) ^ (j + 1) < 2 ^ 256 := Nat.pow_lt_pow_right (by norm_num) (by omega)
          rw [pow_succ] at this; omega)
      have c1 : ((1 * 2 ^ j : Nat) : ℚ) = 2 ^ j := by push_cast; ring
      have c2 : (((1 + 1) * 2 ^ j : Nat) : ℚ) = 2 ^ (j + 1) := by push_cast; ring
      rw [c1, c2] at this
      exact this

end Verif

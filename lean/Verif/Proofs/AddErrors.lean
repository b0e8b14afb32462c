import Verif.Proofs.AddMetrics
import Verif.Proofs.Arith

/-!
# The ADD variants of the error metrics
-/

namespace Verif

variable {m : Mgr}

theorem abs_nonneg_cast (d : Int) : ((|d| : Int) : ℚ) = (d.natAbs : ℚ) := by
  rw [Int.abs_eq_natAbs, Int.cast_natCast]

theorem toU256_diff (r : NumRep) (a b : List Bool) (h : max a.length b.length ≤ 256) :
    toU256 ((|repVal r a - repVal r b| : Int) : ℚ) = (repVal r a - repVal r b).natAbs := by
  rw [abs_nonneg_cast]
  apply toU256_natCast
  have h1 := repVal_diff_lt r a b
  have h2 : (2 ^ max a.length b.length : Int) ≤ 2 ^ 256 := pow_le_pow_right₀ (by norm_num) h
  rw [Int.abs_eq_natAbs] at h1
  have h3 := lt_of_lt_of_le h1 h2
  exact_mod_cast h3

theorem worstCaseErrorAdd_spec (r : NumRep) (f g : List (BDD m)) (hf : SignOk r f) (hg : SignOk r g)
    (hlen : max f.length g.length ≤ 256) {v : Nat} (h : worstCaseErrorAdd r f g = .ok v) :
    IsMax (fun x => |valAt r f x - valAt r g x|) (v : Int) := by
  obtain ⟨a, ha, ea⟩ := absoluteDifferenceAdd_spec r f g hf hg
  simp only [worstCaseErrorAdd, ha, bind, Except.bind] at h
  split at h
  · cases h
  · rename_i l hl
    cases h
    have hval := (addTerminalValues_values a hl).2
    have hK : ∀ x, (toU256 (a.eval x) : Int) = |valAt r f x - valAt r g x| := by
      intro x
      rw [ea, valAt_eq, valAt_eq, toU256_diff r _ _ (by simpa using hlen), Int.abs_eq_natAbs]
    obtain ⟨⟨x, hx⟩, hup⟩ := isMax_of_values hval (fun q => (toU256 q : Nat)) 0 (fun x => Nat.zero_le _)
    refine ⟨⟨x, ?_⟩, fun y => ?_⟩
    · rw [← hx]
      exact (hK x).symm
    · simp only
      rw [← hK y]
      exact_mod_cast hup y

theorem absDiff_vars {r : NumRep} {f g : List (BDD m)} {N : Nat} (hf : Fits N f) (hg : Fits N g) {a : ADD m}
    (ea : ∀ x, a.eval x = ((|valAt r f x - valAt r g x| : Int) : ℚ)) : ∀ v ∈ a.d.vars, v < N :=
  vars_lt_of_bits hf hg (fun p q => ((|repVal r p - repVal r q| : Int) : ℚ))
    (fun x => by rw [ea, valAt_eq, valAt_eq])

theorem xor_vars {f g : List (BDD m)} {N : Nat} (hf : Fits N f) (hg : Fits N g) {a : ADD m}
    (ea : ∀ x, a.eval x = (uval (List.zipWith Bool.xor (bitsAt f x) (bitsAt g x)) : ℚ)) :
    ∀ v ∈ a.d.vars, v < N :=
  vars_lt_of_bits hf hg (fun p q => (uval (List.zipWith Bool.xor p q) : ℚ)) ea

theorem worstCaseErrorAdd_ok (hm : m.Mono) (r : NumRep) (f g : List (BDD m)) (hf : SignOk r f)
    (hg : SignOk r g) {N : Nat} (hfN : Fits N f) (hgN : Fits N g) (hN : N ≤ 64) :
    ∃ v, worstCaseErrorAdd r f g = .ok v := by
  obtain ⟨a, ha, ea⟩ := absoluteDifferenceAdd_spec r f g hf hg
  obtain ⟨l, hl⟩ := addTerminalValues_ok hm a (absDiff_vars hfN hgN ea) hN
  simp only [worstCaseErrorAdd, ha, hl, bind, Except.bind]
  exact ⟨_, rfl⟩

/-! ## Averages -/

theorem u256_add_u256 (a b : Nat) : u256 (a + u256 b) = u256 (a + b) := by
  unfold u256; rw [Nat.add_mod_mod]

theorem u256_u256_mul (a b : Nat) : u256 (u256 a * b) = u256 (a * b) := by
  unfold u256; rw [Nat.mod_mul_mod]

theorem cast_sum_mul (l : List (ℚ × Nat)) (c : ℚ → Nat) :
    (((l.map (fun p => c p.1 * p.2)).sum : Nat) : ℚ) = (l.map (fun p => (c p.1 : ℚ) * p.2)).sum := by
  rw [Nat.cast_list_sum, List.map_map]
  congr 1
  apply List.map_congr_left
  intro p _
  simp

/-- A quotient of wrapped sums is the mean if the weighted sum cannot overflow. -/
theorem fdiv_mean {a : ADD m} {N B M : Nat} {l : List (ℚ × Nat)} (hv : ∀ v ∈ a.d.vars, v < N)
    (hN : N ≤ 64) (hl : addTerminalValues a = .ok l) (c : ℚ → Nat) (hc : ∀ x, c (a.eval x) < B)
    (hB : B * 2 ^ N ≤ M) (hM : 2 ^ N < M) :
    fdiv (((l.map (fun p => c p.1 * p.2)).sum % M : Nat) : ℚ) (((l.map Prod.snd).sum % M : Nat) : ℚ)
      = .ok (mean N (fun x => (c (a.eval x) : ℚ))) := by
  obtain ⟨W, _, hval, hW0, hW, hsum, hmean⟩ := terminalValues_mean a hv hN hl
  have h1 := hmean (fun q => (c q : ℚ))
  rw [← cast_sum_mul] at h1
  have hW0' : (0 : ℚ) < W := by exact_mod_cast hW0
  have hlt : (l.map (fun p => c p.1 * p.2)).sum < M := by
    have hm : mean N (fun x => (c (a.eval x) : ℚ)) ≤ (B : ℚ) - 1 := by
      have := mean_mono N (g := fun x => (c (a.eval x) : ℚ)) (h := fun _ => (B : ℚ) - 1) (fun x => by
        have := hc x
        have h2 : (c (a.eval x) : ℚ) + 1 ≤ B := by exact_mod_cast this
        linarith)
      rwa [mean_const] at this
    have h2 : ((l.map (fun p => c p.1 * p.2)).sum : ℚ) < M := by
      rw [h1]
      have h3 : (W : ℚ) ≤ 2 ^ N := by exact_mod_cast hW
      have h4 : ((B * 2 ^ N : Nat) : ℚ) ≤ M := by exact_mod_cast hB
      push_cast at h4
      have hB1 : (1 : ℚ) ≤ B := by
        have := hc (fun _ => false)
        exact_mod_cast (by omega : 1 ≤ B)
      calc (W : ℚ) * mean N (fun x => (c (a.eval x) : ℚ)) ≤ W * (B - 1) := by gcongr
        _ < W * B := by
          have : (B : ℚ) - 1 < B := by linarith
          exact mul_lt_mul_of_pos_left this hW0'
        _ ≤ 2 ^ N * B := by gcongr
        _ ≤ M := by linarith
    exact_mod_cast h2
  have hWM : W < M := lt_of_le_of_lt hW hM
  rw [Nat.mod_eq_of_lt hlt, hsum, Nat.mod_eq_of_lt hWM, h1, fdiv, if_neg hW0'.ne',
    mul_div_cancel_left₀ _ hW0'.ne']

theorem averageCaseErrorAdd_spec (r : NumRep) (f g : List (BDD m)) (hf : SignOk r f) (hg : SignOk r g)
    {N : Nat} (hfN : Fits N f) (hgN : Fits N g) (hN : N ≤ 64) (hlen : max f.length g.length + N ≤ 256)
    {a : ADD m} (ha : absoluteDifferenceAdd r f g = .ok a) {l : List (ℚ × Nat)}
    (hl : addTerminalValues a = .ok l) :
    averageCaseErrorAdd r f g = .ok (mean N (fun x => ((|valAt r f x - valAt r g x| : Int) : ℚ))) := by
  obtain ⟨a', ha', ea⟩ := absoluteDifferenceAdd_spec r f g hf hg
  rw [ha] at ha'
  cases ha'
  simp only [averageCaseErrorAdd, ha, hl, bind, Except.bind, u256_add_u256]
  rw [foldl_u256 (fun p : ℚ × Nat => toU256 p.1 * p.2) _ _ (by norm_num),
    foldl_u256 (fun p : ℚ × Nat => p.2) _ _ (by norm_num)]
  have hK : ∀ x, toU256 (a.eval x) = (valAt r f x - valAt r g x).natAbs := by
    intro x
    rw [ea, valAt_eq, valAt_eq, toU256_diff r _ _ (by simp; omega)]
  simp only [Nat.zero_add, u256]
  have := fdiv_mean (absDiff_vars hfN hgN ea) hN hl toU256 (B := 2 ^ max f.length g.length) (M := 2 ^ 256)
    (fun x => by
      rw [hK x, valAt_eq, valAt_eq]
      have h1 := repVal_diff_lt r (bitsAt f x) (bitsAt g x)
      rw [Int.abs_eq_natAbs] at h1
      simp only [bitsAt_length] at h1
      exact_mod_cast h1)
    (by rw [← pow_add]; exact Nat.pow_le_pow_right (by norm_num) hlen)
    (Nat.pow_lt_pow_right (by norm_num) (by omega))
  rw [show (List.map (fun p : ℚ × Nat => p.2) l).sum = (l.map Prod.snd).sum from rfl, this]
  apply congrArg Except.ok
  apply mean_congr
  intro x
  rw [hK x, abs_nonneg_cast]

theorem meanSquaredErrorAdd_spec (r : NumRep) (f g : List (BDD m)) (hf : SignOk r f) (hg : SignOk r g)
    {N : Nat} (hfN : Fits N f) (hgN : Fits N g) (hN : N ≤ 64) (hlen : 2 * max f.length g.length + N ≤ 256)
    {a : ADD m} (ha : absoluteDifferenceAdd r f g = .ok a) {l : List (ℚ × Nat)}
    (hl : addTerminalValues a = .ok l) :
    meanSquaredErrorAdd r f g = .ok (mean N (fun x => ((valAt r f x - valAt r g x : Int) : ℚ) ^ 2)) := by
  obtain ⟨a', ha', ea⟩ := absoluteDifferenceAdd_spec r f g hf hg
  rw [ha] at ha'
  cases ha'
  simp only [meanSquaredErrorAdd, ha, hl, bind, Except.bind, u256_u256_mul, u256_add_u256]
  rw [foldl_u256 (fun p : ℚ × Nat => toU256 p.1 * toU256 p.1 * p.2) _ _ (by norm_num),
    foldl_u256 (fun p : ℚ × Nat => p.2) _ _ (by norm_num)]
  have hK : ∀ x, toU256 (a.eval x) = (valAt r f x - valAt r g x).natAbs := by
    intro x
    rw [ea, valAt_eq, valAt_eq, toU256_diff r _ _ (by simp; omega)]
  simp only [Nat.zero_add, u256]
  have := fdiv_mean (absDiff_vars hfN hgN ea) hN hl (fun q => toU256 q * toU256 q)
    (B := 2 ^ max f.length g.length * 2 ^ max f.length g.length) (M := 2 ^ 256)
    (fun x => by
      have h2 : toU256 (a.eval x) < 2 ^ max f.length g.length := by
        rw [hK x, valAt_eq, valAt_eq]
        have h1 := repVal_diff_lt r (bitsAt f x) (bitsAt g x)
        rw [Int.abs_eq_natAbs] at h1
        simp only [bitsAt_length] at h1
        exact_mod_cast h1
      exact Nat.mul_lt_mul'' h2 h2)
    (by rw [← pow_add, ← pow_add]; exact Nat.pow_le_pow_right (by norm_num) (by omega))
    (Nat.pow_lt_pow_right (by norm_num) (by omega))
  rw [show (List.map (fun p : ℚ × Nat => p.2) l).sum = (l.map Prod.snd).sum from rfl, this]
  apply congrArg Except.ok
  apply mean_congr
  intro x
  rw [hK x]
  have h3 : (((valAt r f x - valAt r g x).natAbs : Nat) : ℚ) = |((valAt r f x - valAt r g x : Int) : ℚ)| := by
    rw [← abs_nonneg_cast, Int.cast_abs]
  push_cast at h3 ⊢
  rw [h3, abs_mul_abs_self, sq]

/-! ## Error rate and bit flips -/

theorem foldl_if {α : Type _} (P : α → Prop) [DecidablePred P] (f : α → Nat) : ∀ (l : List α) (s : Nat),
    l.foldl (fun s p => if P p then u64 (s + f p) else s) s
      = (l.filter (fun p => decide (P p))).foldl (fun s p => u64 (s + f p)) s
  | [], s => rfl
  | a :: as, s => by
      rw [List.foldl_cons, List.filter_cons]
      by_cases h : P a
      · simp only [h, if_true, decide_true, List.foldl_cons]
        exact foldl_if P f as _
      · simp only [h, if_false, decide_false, Bool.false_eq_true]
        exact foldl_if P f as _

theorem sum_filter_ne : ∀ (l : List (ℚ × Nat)),
    ((l.filter (fun p => decide (p.1 ≠ 0))).map (fun p => p.2)).sum
      = (l.map (fun p => (if p.1 = 0 then 0 else 1) * p.2)).sum
  | [] => rfl
  | p :: ps => by
      have ih := sum_filter_ne ps
      by_cases h : p.1 = 0
      · simp only [List.filter_cons, h, ne_eq, not_true, decide_false, Bool.false_eq_true, if_false,
          List.map_cons, List.sum_cons, if_true, Nat.zero_mul, Nat.zero_add]
        exact ih
      · simp only [List.filter_cons, h, ne_eq, not_false_eq_true, decide_true, if_true,
          List.map_cons, List.sum_cons, if_false, Nat.one_mul]
        rw [← ih]

theorem xor_eq_zero : ∀ {a b : List Bool}, a.length = b.length →
    (uval (List.zipWith Bool.xor a b) = 0 ↔ a = b)
  | [], [], _ => by simp [uval]
  | [], b :: bs, h => by simp at h
  | a :: as, [], h => by simp at h
  | a :: as, b :: bs, h => by
      have ih := xor_eq_zero (a := as) (b := bs) (by simpa using h)
      rw [List.zipWith_cons_cons, uval, List.cons.injEq, ← ih]
      cases a <;> cases b <;> simp

theorem errorRateAdd_spec (f g : List (BDD m)) (hlen : f.length = g.length) {N : Nat} (hfN : Fits N f)
    (hgN : Fits N g) (hN : N ≤ 63) {a : ADD m} (ha : xorDifferenceAdd f g = .ok a) {l : List (ℚ × Nat)}
    (hl : addTerminalValues a = .ok l) :
    errorRateAdd f g = .ok (mean N (fun x => if bitsAt f x = bitsAt g x then 0 else 1)) := by
  obtain ⟨a', ha', ea⟩ := xorDifferenceAdd_spec f g hlen.le
  rw [ha] at ha'
  cases ha'
  simp only [errorRateAdd, ha, hl, bind, Except.bind]
  rw [foldl_if (fun p : ℚ × Nat => p.1 ≠ 0) (fun p => p.2), foldl_u64 (fun p : ℚ × Nat => p.2) _ _ (by norm_num),
    foldl_u64 (fun p : ℚ × Nat => p.2) _ _ (by norm_num), sum_filter_ne]
  simp only [Nat.zero_add, u64]
  have := fdiv_mean (xor_vars hfN hgN ea) (by omega) hl (fun q => if q = 0 then 0 else 1)
    (B := 2) (M := 2 ^ 64) (fun x => by split <;> norm_num)
    (by rw [← pow_succ']; exact Nat.pow_le_pow_right (by norm_num) (by omega))
    (Nat.pow_lt_pow_right (by norm_num) (by omega))
  rw [show (List.map (fun p : ℚ × Nat => p.2) l).sum = (l.map Prod.snd).sum from rfl, this]
  apply congrArg Except.ok
  apply mean_congr
  intro x
  have h0 : a.eval x = 0 ↔ bitsAt f x = bitsAt g x := by
    rw [ea, Nat.cast_eq_zero, xor_eq_zero (by simp [hlen])]
  by_cases h : bitsAt f x = bitsAt g x
  · rw [if_pos (h0.mpr h), if_pos h]; simp
  · rw [if_neg (fun h' => h (h0.mp h')), if_neg h]; simp

/-- Number of set bits. -/
def pop64 (q : ℚ) : Nat := ((List.range 64).filter (fun i => ⌊q⌋.toNat.testBit i)).length

theorem popcountll_values {f g : List (BDD m)} (hlen : f.length = g.length) (h64 : f.length ≤ 64) {a : ADD m}
    (ea : ∀ x, a.eval x = (uval (List.zipWith Bool.xor (bitsAt f x) (bitsAt g x)) : ℚ)) :
    (∀ x, pop64 (a.eval x) = hamming (bitsAt f x) (bitsAt g x)) ∧
    ∀ {l : List (ℚ × Nat)}, addTerminalValues a = .ok l → ∀ p ∈ l, popcountll p.1 = .ok (pop64 p.1) := by
  have key : ∀ x, popcountll (a.eval x) = .ok (hamming (bitsAt f x) (bitsAt g x)) := by
    intro x
    rw [ea]
    exact popcountll_xor _ _ (by simp [hlen]) (by simpa using h64)
  have h2 : ∀ q k, popcountll q = .ok k → pop64 q = k := by
    intro q k h
    unfold popcountll at h
    split at h
    · cases h; rfl
    · cases h
  refine ⟨fun x => h2 _ _ (key x), fun {l} hl p hp => ?_⟩
  obtain ⟨x, hx⟩ := ((addTerminalValues_values a hl).2 p.1).mp (List.mem_map_of_mem hp)
  rw [← hx, key, h2 _ _ (key x)]

theorem worstCaseBitFlipErrorAdd_spec (f g : List (BDD m)) (hlen : f.length = g.length)
    (h64 : f.length ≤ 64) {a : ADD m} (ha : xorDifferenceAdd f g = .ok a) {l : List (ℚ × Nat)}
    (hl : addTerminalValues a = .ok l) :
    ∃ v, worstCaseBitFlipErrorAdd f g = .ok v ∧ IsMax (fun x => hamming (bitsAt f x) (bitsAt g x)) v := by
  obtain ⟨a', ha', ea⟩ := xorDifferenceAdd_spec f g hlen.le
  rw [ha] at ha'
  cases ha'
  obtain ⟨h1, h2⟩ := popcountll_values hlen h64 ea
  have h3 := isMax_of_values (addTerminalValues_values a hl).2 pop64 0 (fun x => Nat.zero_le _)
  refine ⟨_, by simp only [worstCaseBitFlipErrorAdd, ha, hl, bind, Except.bind]; exact maxFlipLoop_spec pop64 l 0 (h2 hl), ?_⟩
  simp only [h1] at h3
  exact h3

theorem averageBitFlipErrorAdd_spec (f g : List (BDD m)) (hlen : f.length = g.length)
    {N : Nat} (hfN : Fits N f) (hgN : Fits N g) (hN : (f.length + 1) * 2 ^ N ≤ 2 ^ 64) (h64 : f.length ≤ 64)
    {a : ADD m} (ha : xorDifferenceAdd f g = .ok a) {l : List (ℚ × Nat)}
    (hl : addTerminalValues a = .ok l) (hne : f ≠ []) :
    averageBitFlipErrorAdd f g = .ok (mean N (fun x => (hamming (bitsAt f x) (bitsAt g x) : ℚ))) := by
  obtain ⟨a', ha', ea⟩ := xorDifferenceAdd_spec f g hlen.le
  rw [ha] at ha'
  cases ha'
  obtain ⟨h1, h2⟩ := popcountll_values hlen h64 ea
  have hpos : 1 ≤ f.length := List.length_pos_iff.mpr hne
  have hp : 2 ^ N < 2 ^ 64 := by nlinarith [Nat.two_pow_pos N]
  have hN64 : N ≤ 64 := ((Nat.pow_lt_pow_iff_right (by norm_num)).mp hp).le
  simp only [averageBitFlipErrorAdd, ha, hl, bind, Except.bind]
  rw [avgFlipLoop_spec pop64 l 0 0 (h2 hl) (by norm_num) (by norm_num)]
  simp only [Nat.zero_add, u64]
  rw [fdiv_mean (xor_vars hfN hgN ea) hN64 hl pop64 (B := f.length + 1) (M := 2 ^ 64) (fun x => by
      rw [h1]
      have := hamming_le (bitsAt f x) (bitsAt g x)
      rw [bitsAt_length] at this
      omega) hN hp]
  apply congrArg Except.ok
  exact mean_congr N (fun x => by rw [h1])

theorem bitErrorSum_spec : ∀ (f g : List (BDD m)) (acc : ADD m) (x : Asg),
    (bitErrorSum f g acc).eval x = acc.eval x + (hamming (bitsAt f x) (bitsAt g x) : ℚ)
  | [], g, acc, x => by simp [bitErrorSum, hamming]
  | a :: as, [], acc, x => by simp [bitErrorSum, hamming]
  | a :: as, b :: bs, acc, x => by
      rw [bitErrorSum, bitErrorSum_spec as bs, ADD.eval_add, ADD.eval_ofBDD, BDD.eval_xor]
      simp only [bitsAt_cons, hamming]
      push_cast
      cases a.eval x <;> cases b.eval x <;> simp <;> ring

theorem ADD.isMax_findMax (a : ADD m) : IsMax a.eval a.d.findMax := by
  obtain ⟨h1, h2⟩ := AD.findMax_spec a.d
  refine ⟨(AD.mem_subs_const a.wf).mp h1, fun x => h2 _ ((AD.mem_subs_const a.wf).mpr ⟨x, rfl⟩)⟩

theorem worstCaseBitFlipError_spec (f g : List (BDD m)) (hlen : f.length = g.length)
    (h32 : f.length < 2 ^ 32) :
    ∃ v, worstCaseBitFlipError f g = .ok v ∧ IsMax (fun x => hamming (bitsAt f x) (bitsAt g x)) v := by
  obtain ⟨⟨x, hx⟩, hup⟩ := ADD.isMax_findMax (bitErrorSum f g (.const 0))
  simp only [bitErrorSum_spec, ADD.eval_const, zero_add] at hx hup
  refine ⟨hamming (bitsAt f x) (bitsAt g x), ?_, ⟨x, rfl⟩, fun y => ?_⟩
  · have hl := hamming_le (bitsAt f x) (bitsAt g x)
    rw [bitsAt_length] at hl
    have hc : ∀ q : ℚ, constADDValue (ADD.const q : ADD m)
        = if 0 ≤ ⌊q⌋ ∧ ⌊q⌋ < 2 ^ 32 then .ok ⌊q⌋.toNat else .error .ub := fun q => rfl
    rw [worstCaseBitFlipError, if_neg (by simp [hlen]), ADD.findMax, hc, ← hx, Int.floor_natCast, if_pos ⟨by positivity, by
      have : hamming (bitsAt f x) (bitsAt g x) < 2 ^ 32 := by omega
      exact_mod_cast this⟩, Int.toNat_natCast]
  · have := hup y
    rw [← hx] at this
    exact_mod_cast this

/-! ## Relative errors -/

/-- Relative error of an approximation at one input. -/
def relErr (r : NumRep) (a b : List Bool) : ℚ :=
  ((|repVal r a - repVal r b| : Int) : ℚ) / max 1 ((|repVal r a| : Int) : ℚ)

theorem relativeDiffAdd_spec (r : NumRep) (f g : List (BDD m)) (hf : SignOk r f) (hg : SignOk r g) :
    ∃ a, relativeDiffAdd r f g = .ok a ∧ ∀ x, a.eval x = relErr r (bitsAt f x) (bitsAt g x) := by
  obtain ⟨a, ha, ea⟩ := absoluteDifferenceAdd_spec r f g hf hg
  have hb : ∃ fa, bddAbs r f = .ok fa ∧ ∀ x, (uAt fa x : Int) = |valAt r f x| := by
    cases r with
    | baseTwo => exact ⟨f, rfl, fun x => by simp [valAt]⟩
    | twosComplement =>
      obtain ⟨fa, h1, _, h3⟩ := bddAbs_spec f (hf rfl)
      exact ⟨fa, h1, h3⟩
  obtain ⟨fa, hfa, efa⟩ := hb
  obtain ⟨d, hd, ed⟩ := bddForestToAdd_spec .baseTwo fa (by simp)
  refine ⟨_, by simp only [relativeDiffAdd, ha, hfa, hd, bind, Except.bind]; rfl, fun x => ?_⟩
  rw [ADD.eval_div, ADD.eval_maximum, ADD.eval_const, ea, ed]
  have : valAt .baseTwo fa x = |valAt r f x| := efa x
  rw [this, max_comm, relErr, valAt_eq, valAt_eq]

theorem relErr_eq (r : NumRep) (f g : List (BDD m)) (x : Asg) :
    relErr r (bitsAt f x) (bitsAt g x) = relErrAt r f g x := by
  rw [relErr, relErrAt, valAt_eq, valAt_eq]

theorem relErr_nonneg (r : NumRep) (a b : List Bool) : 0 ≤ relErr r a b := by
  unfold relErr
  apply div_nonneg
  · exact_mod_cast abs_nonneg _
  · exact le_trans zero_le_one (le_max_left _ _)

theorem foldl_max_comm (l : List (ℚ × Nat)) (s : ℚ) :
    l.foldl (fun l p => max l p.1) s = l.foldl (fun s p => max p.1 s) s := by
  congr 1
  funext s p
  exact max_comm _ _

theorem wcreAdd_spec (r : NumRep) (f g : List (BDD m)) (hf : SignOk r f) (hg : SignOk r g) {q : ℚ}
    (h : wcreAdd r f g = .ok q) : IsMax (fun x => relErr r (bitsAt f x) (bitsAt g x)) q := by
  obtain ⟨a, ha, ea⟩ := relativeDiffAdd_spec r f g hf hg
  simp only [wcreAdd, ha, bind, Except.bind] at h
  split at h
  · cases h
  · rename_i l hl
    cases h
    have := isMax_of_values (addTerminalValues_values a hl).2 (fun q => q) 0 (fun x => by
      simp only [ea]; exact relErr_nonneg _ _ _)
    simp only [ea] at this
    rw [foldl_max_comm]
    exact this

theorem wcreAdd_ok (hm : m.Mono) (r : NumRep) (f g : List (BDD m)) (hf : SignOk r f)
    (hg : SignOk r g) {N : Nat} (hfN : Fits N f) (hgN : Fits N g) (hN : N ≤ 64) :
    ∃ q, wcreAdd r f g = .ok q := by
  obtain ⟨a, ha, ea⟩ := relativeDiffAdd_spec r f g hf hg
  obtain ⟨l, hl⟩ := addTerminalValues_ok hm a (vars_lt_of_bits hfN hgN _ ea) hN
  simp only [wcreAdd, ha, hl, bind, Except.bind]
  exact ⟨_, rfl⟩

theorem foldl_sum_eq (l : List (ℚ × Nat)) : ∀ s : ℚ,
    l.foldl (fun s p => s + p.1 * (p.2 : ℚ)) s = s + (l.map (fun p => p.1 * (p.2 : ℚ))).sum := by
  induction l with
  | nil => intro s; simp
  | cons p ps ih =>
    intro s
    rw [List.foldl_cons, ih, List.map_cons, List.sum_cons, add_assoc]

theorem acreAdd_spec (r : NumRep) (f g : List (BDD m)) (hf : SignOk r f) (hg : SignOk r g)
    {N : Nat} (hfN : Fits N f) (hgN : Fits N g) (hN : N ≤ 64)
    {a : ADD m} (ha : relativeDiffAdd r f g = .ok a) {l : List (ℚ × Nat)}
    (hl : addTerminalValues a = .ok l) :
    acreAdd r f g = .ok (mean N (fun x => relErr r (bitsAt f x) (bitsAt g x))) := by
  obtain ⟨a', ha', ea⟩ := relativeDiffAdd_spec r f g hf hg
  rw [ha] at ha'
  cases ha'
  obtain ⟨W, _, hval, hW0, hW, hsum, hmean⟩ := terminalValues_mean a (vars_lt_of_bits hfN hgN _ ea) hN hl
  simp only [acreAdd, ha, hl, bind, Except.bind]
  have hW0' : (0 : ℚ) < W := by exact_mod_cast hW0
  have hlt : W < 2 ^ 256 := lt_of_le_of_lt hW (Nat.pow_lt_pow_right (by norm_num) (by omega))
  rw [foldl_sum_eq, foldl_u256 (fun p : ℚ × Nat => p.2) _ _ (by norm_num),
    show (List.map (fun p : ℚ × Nat => p.2) l).sum = (l.map Prod.snd).sum from rfl, hsum, zero_add,
    zero_add, u256, Nat.mod_eq_of_lt hlt, hmean (fun q => q), fdiv, if_neg hW0'.ne',
    mul_div_cancel_left₀ _ hW0'.ne']
  apply congrArg Except.ok
  exact mean_congr N (fun x => ea x)

end Verif

import Verif.Proofs.FloatAdd
import Verif.Props.Add
import Verif.Props.FloatMetrics

/-!
# C116: the metrics on ADDs with `double`s and merged constants

`A.choice` is arbitrary throughout: whichever of the close constants CUDD finds, the claims hold.
-/

namespace Verif

variable {m : Mgr} {A : AddEnv} {dec : ℚ → ℚ}

/-! ## Whole numbers -/

/-- Conversion of a vector of at most 53 bits: exact, and the table stays separated. -/
theorem C116_forest_to_add (hr : Nearest A.rnd) (h0 : 0 < A.eps) (h1 : A.eps ≤ 1) (r : NumRep) (f : List (BDD m))
    (hf : SignOk r f) (hlen : f.length ≤ 53) (s : CTab) (hs : s.Sep A.eps) :
    ∃ a s', bddForestToAddE A r f s = .ok (a, s') ∧ s'.Sep A.eps ∧ ∀ x, a.eval x = (valAt r f x : ℚ) := by
  obtain ⟨s', hs', e⟩ := bddForestToAddE_eq hr h0 h1 r f hlen s hs
  obtain ⟨a, ha, ea⟩ := C22_forest_to_add r f hf
  exact ⟨a, s', by rw [e, ha]; rfl, hs', ea⟩

/-- `worst_case_error_add` is exact up to 53 bits. -/
theorem C116_worst_case_error_add (hr : Nearest A.rnd) (h0 : 0 < A.eps) (h1 : A.eps ≤ 1) (hm : m.Mono) (r : NumRep)
    (f g : List (BDD m)) (hf : SignOk r f) (hg : SignOk r g) (hfl : f.length ≤ 53) (hgl : g.length ≤ 53) (N : Nat)
    (hfN : Fits N f) (hgN : Fits N g) (hN : N ≤ 64) (s : CTab) (hs : s.Sep A.eps) :
    ∃ (v : Nat) (s' : CTab), worstCaseErrorAddE A r f g s = .ok (v, s') ∧ s'.Sep A.eps ∧
      IsMax (fun x => |valAt r f x - valAt r g x|) (v : Int) := by
  obtain ⟨s', hs', e⟩ := worstCaseErrorAddE_eq hr h0 h1 r f g hfl hgl s hs
  obtain ⟨v, hv, hmax⟩ := C28_worst_case_error_add hm r f g hf hg (by omega) N hfN hgN hN
  exact ⟨v, s', by rw [e, hv]; rfl, hs', hmax⟩

/-- `average_case_error_add` and `mean_squared_error_add`: only the last quotient is rounded. -/
theorem C116_average_case_error_add (hr : Nearest A.rnd) (h0 : 0 < A.eps) (h1 : A.eps ≤ 1) (hd : Dec100 dec)
    (hm : m.Mono) (r : NumRep) (f g : List (BDD m)) (hf : SignOk r f) (hg : SignOk r g) (hfl : f.length ≤ 53)
    (hgl : g.length ≤ 53) (N : Nat) (hfN : Fits N f) (hgN : Fits N g) (hN : N ≤ 64) (s : CTab) (hs : s.Sep A.eps) :
    ∃ q s', averageCaseErrorAddE A dec r f g s = .ok (q, s') ∧ s'.Sep A.eps ∧
      |q - mean N (fun x => ((|valAt r f x - valAt r g x| : Int) : ℚ))| ≤
        mean N (fun x => ((|valAt r f x - valAt r g x| : Int) : ℚ)) / 10 ^ 99 := by
  obtain ⟨s', hs', e⟩ := averageCaseErrorAddE_eq hr h0 h1 dec r f g hfl hgl s hs
  refine ⟨_, s', by rw [e, C34_average_case_error_add hm r f g hf hg N hfN hgN hN (by omega)]; rfl, hs', ?_⟩
  have := hd.near (mean N (fun x => ((|valAt r f x - valAt r g x| : Int) : ℚ)))
  rwa [abs_of_nonneg (mean_nonneg N (fun x => by exact_mod_cast abs_nonneg _))] at this

theorem C116_mean_squared_error_add (hr : Nearest A.rnd) (h0 : 0 < A.eps) (h1 : A.eps ≤ 1) (hd : Dec100 dec)
    (hm : m.Mono) (r : NumRep) (f g : List (BDD m)) (hf : SignOk r f) (hg : SignOk r g) (hfl : f.length ≤ 53)
    (hgl : g.length ≤ 53) (N : Nat) (hfN : Fits N f) (hgN : Fits N g) (hN : N ≤ 64) (s : CTab) (hs : s.Sep A.eps) :
    ∃ q s', meanSquaredErrorAddE A dec r f g s = .ok (q, s') ∧ s'.Sep A.eps ∧
      |q - mean N (fun x => ((valAt r f x - valAt r g x : Int) : ℚ) ^ 2)| ≤
        mean N (fun x => ((valAt r f x - valAt r g x : Int) : ℚ) ^ 2) / 10 ^ 99 := by
  obtain ⟨s', hs', e⟩ := meanSquaredErrorAddE_eq hr h0 h1 dec r f g hfl hgl s hs
  refine ⟨_, s', by rw [e, C34_mean_squared_error_add hm r f g hf hg N hfN hgN hN (by omega)]; rfl, hs', ?_⟩
  have := hd.near (mean N (fun x => ((valAt r f x - valAt r g x : Int) : ℚ) ^ 2))
  rwa [abs_of_nonneg (mean_nonneg N (fun x => sq_nonneg _))] at this

/-- `error_rate_add`: both counts and the quotient are rounded; up to 53 variables the result is the `double` nearest
to the error rate. -/
theorem C116_error_rate_add (hr : Nearest A.rnd) (h0 : 0 < A.eps) (h1 : A.eps ≤ 1) (hm : m.Mono)
    (f g : List (BDD m)) (hl : f.length = g.length) (hfl : f.length ≤ 53) (N : Nat) (hfN : Fits N f) (hgN : Fits N g)
    (hN : N ≤ 63) (s : CTab) (hs : s.Sep A.eps) :
    ∃ q s', errorRateAddE A f g s = .ok (q, s') ∧ s'.Sep A.eps ∧
      |q - mean N (fun x => if bitsAt f x = bitsAt g x then 0 else 1)| ≤
        mean N (fun x => if bitsAt f x = bitsAt g x then 0 else 1) * (1 / 2 ^ 51) ∧
      (N ≤ 53 → q = A.rnd (mean N (fun x => if bitsAt f x = bitsAt g x then 0 else 1))) :=
  errorRateAddE_spec hr h0 h1 f g hl hfl hfN hgN hN s hs (C36_error_rate_add hm f g hl N hfN hgN hN)

/-- The bit flip metrics. -/
theorem C116_worst_case_bit_flip_error (hr : Nearest A.rnd) (h0 : 0 < A.eps) (h1 : A.eps ≤ 1)
    (f g : List (BDD m)) (hl : f.length = g.length) (h32 : f.length < 2 ^ 32) (s : CTab) (hs : s.Sep A.eps) :
    ∃ v s', worstCaseBitFlipErrorE A f g s = .ok (v, s') ∧ s'.Sep A.eps ∧
      IsMax (fun x => hamming (bitsAt f x) (bitsAt g x)) v := by
  obtain ⟨s', hs', e⟩ := worstCaseBitFlipErrorE_eq hr h0 h1 f g h32 s hs
  obtain ⟨v, hv, hmax⟩ := C39_worst_case_bit_flip_error f g hl h32
  exact ⟨v, s', by rw [e, hv]; rfl, hs', hmax⟩

theorem C116_worst_case_bit_flip_error_add (hr : Nearest A.rnd) (h0 : 0 < A.eps) (h1 : A.eps ≤ 1) (hm : m.Mono)
    (f g : List (BDD m)) (hl : f.length = g.length) (hfl : f.length ≤ 53) (N : Nat) (hfN : Fits N f) (hgN : Fits N g)
    (hN : N ≤ 64) (s : CTab) (hs : s.Sep A.eps) :
    ∃ v s', worstCaseBitFlipErrorAddE A f g s = .ok (v, s') ∧ s'.Sep A.eps ∧
      IsMax (fun x => hamming (bitsAt f x) (bitsAt g x)) v := by
  obtain ⟨s', hs', e⟩ := worstCaseBitFlipErrorAddE_eq hr h0 h1 f g hfl s hs
  obtain ⟨v, hv, hmax⟩ := C39_worst_case_bit_flip_error_add hm f g hl (by omega) N hfN hgN hN
  exact ⟨v, s', by rw [e, hv]; rfl, hs', hmax⟩

theorem C116_average_bit_flip_error_add (hr : Nearest A.rnd) (h0 : 0 < A.eps) (h1 : A.eps ≤ 1) (hm : m.Mono)
    (f g : List (BDD m)) (hl : f.length = g.length) (hne : f ≠ []) (hfl : f.length ≤ 53) (N : Nat) (hfN : Fits N f)
    (hgN : Fits N g) (hN : (f.length + 1) * 2 ^ N ≤ 2 ^ 64) (s : CTab) (hs : s.Sep A.eps) :
    ∃ q s', averageBitFlipErrorAddE A f g s = .ok (q, s') ∧ s'.Sep A.eps ∧
      |q - mean N (fun x => (hamming (bitsAt f x) (bitsAt g x) : ℚ))| ≤
        mean N (fun x => (hamming (bitsAt f x) (bitsAt g x) : ℚ)) * (1 / 2 ^ 51) :=
  averageBitFlipErrorAddE_spec hr h0 h1 f g hfl s hs
    (C40_average_bit_flip_error_add hm f g hl hne (by omega) N hfN hgN hN)

/-- 53 bits are the limit: the constant 2⁵³ + 1 of 54 bits becomes an even number, so the result of
`worst_case_error_add` is not the worst-case error 2⁵³ + 1, whatever constants were there before. -/
theorem C116_fifty_four_bits_false (hr : Nearest A.rnd) (h0 : 0 < A.eps) (h1 : A.eps ≤ 1) (s : CTab)
    (hs : s.Sep A.eps) : ∃ f g : List (BDD m), f.length = 54 ∧ Fits 0 f ∧ Fits 0 g ∧
      IsMax (fun x => |valAt .baseTwo f x - valAt .baseTwo g x|) (2 ^ 53 + 1) ∧
      ∃ (v : Nat) (s' : CTab), worstCaseErrorAddE A .baseTwo f g s = .ok (v, s') ∧ v ≠ 2 ^ 53 + 1 := by
  obtain ⟨v, s', e, hv⟩ := worst_54 (m := m) hr h0 h1 s hs
  have hb : ∀ b ∈ (BDD.one : BDD m) :: List.replicate 52 .zero ++ [.one], b = .one ∨ b = .zero := by
    intro b hb
    simp only [List.cons_append, List.mem_cons, List.mem_append, List.mem_replicate, List.not_mem_nil, or_false] at hb
    rcases hb with rfl | ⟨-, rfl⟩ | rfl <;> simp
  have hval : ∀ x, |valAt .baseTwo ((BDD.one : BDD m) :: List.replicate 52 .zero ++ [.one]) x -
      valAt .baseTwo [(BDD.zero : BDD m)] x| = 2 ^ 53 + 1 := fun x => by
    have h2 : valAt .baseTwo [(BDD.zero : BDD m)] x = 0 := rfl
    have h3 : uAt ((BDD.one : BDD m) :: List.replicate 52 .zero ++ [.one]) x = 2 ^ 53 + 1 := by
      rw [show (BDD.one : BDD m) :: List.replicate 52 .zero ++ [.one] =
        [.one] ++ (List.replicate 52 .zero ++ [.one]) from rfl, uAt_append, uAt_append, uAt_replicate_zero,
        List.length_replicate, zero_add, show uAt [(BDD.one : BDD m)] x = 1 from rfl]
      norm_num
    have h4 : valAt .baseTwo ((BDD.one : BDD m) :: List.replicate 52 .zero ++ [.one]) x = 2 ^ 53 + 1 := by
      simp only [valAt]
      rw [h3]; norm_num
    rw [h2, h4]; norm_num
  refine ⟨_, [.zero], by simp, ?_, ?_, ⟨⟨fun _ => false, hval _⟩, fun x => (hval x).le⟩, v, s', e, by omega⟩
  · intro b h v hv
    rcases hb b h with rfl | rfl
    · exact absurd hv (by rw [show (BDD.one : BDD m).supportIndices = [] from rfl]; simp)
    · exact absurd hv (by rw [show (BDD.zero : BDD m).supportIndices = [] from rfl]; simp)
  · intro b h v hv
    rw [List.mem_singleton] at h
    subst h
    exact absurd hv (by rw [show (BDD.zero : BDD m).supportIndices = [] from rfl]; simp)

/-! ## Relative errors -/

/-- `wcre_add`: off by at most `epsilon` and one rounding. -/
theorem C116_wcre_add (hr : Nearest A.rnd) (h0 : 0 < A.eps) (h1 : A.eps ≤ 1) (hm : m.Mono) (r : NumRep)
    (f g : List (BDD m)) (hf : SignOk r f) (hg : SignOk r g) (hfl : f.length ≤ 53) (hgl : g.length ≤ 53) (N : Nat)
    (hfN : Fits N f) (hgN : Fits N g) (hN : N ≤ 64) (s : CTab) (hs : s.Sep A.eps) :
    ∃ M q s', IsMax (relErrAt r f g) M ∧ wcreAddE A r f g s = .ok (q, s') ∧ 0 ≤ q ∧
      |q - M| ≤ A.eps + M * (1 / 2 ^ 53) := by
  obtain ⟨M, -, hM⟩ := C41_wcre_add hm r f g hf hg N hfN hgN hN
  obtain ⟨v, s', e, hv0, hv, -⟩ := wcreAddE_spec hr h0 h1 hm r f g hf hg hfl hgl hfN hgN hN s hs hM
  exact ⟨M, v, s', hM, e, hv0, hv⟩

/-- `acre_add`: off by at most twice `epsilon` and two roundings. -/
theorem C116_acre_add (hr : Nearest A.rnd) (h0 : 0 < A.eps) (h1 : A.eps ≤ 1) (hd : Dec100 dec) (hm : m.Mono)
    (r : NumRep) (f g : List (BDD m)) (hf : SignOk r f) (hg : SignOk r g) (hfl : f.length ≤ 53) (hgl : g.length ≤ 53)
    (N : Nat) (hfN : Fits N f) (hgN : Fits N g) (hN : N ≤ 64) (s : CTab) (hs : s.Sep A.eps) :
    ∃ q s', acreAddE A dec r f g s = .ok (q, s') ∧ 0 ≤ q ∧
      |q - mean N (relErrAt r f g)| ≤ 2 * A.eps + mean N (relErrAt r f g) * (1 / 2 ^ 52) := by
  obtain ⟨v, s', e, hv0, hv, -⟩ := acreAddE_spec hd hr h0 h1 hm r f g hf hg hfl hgl hfN hgN hN s hs
  exact ⟨v, s', e, hv0, hv⟩

example : ∃ (A : AddEnv) (s : CTab), Nearest A.rnd ∧ 0 < A.eps ∧ A.eps ≤ 1 ∧ s.Sep A.eps ∧ Dec100 id ∧
    SignOk .twosComplement [(BDD.var 0 : BDD .id), .var 1] ∧ Fits 2 [(BDD.var 0 : BDD .id), .var 1] ∧
    (1 / 2 : ℚ) ∈ s.consts := by
  obtain ⟨rnd, hr⟩ := exists_nearest
  refine ⟨⟨rnd, 1 / 10 ^ 12, fun n => n⟩, ⟨[0, 1, 1 / 2], 0⟩, hr, by norm_num, by norm_num, ?_,
    ⟨fun q => by simpa using by positivity⟩, by simp [SignOk], by decide +kernel, by simp⟩
  intro r hr z hz
  simp only [List.mem_cons, List.not_mem_nil, or_false] at hr
  simp only at hz
  have h1 : |r - z| < 1 / 2 := hz.trans (by norm_num)
  have h2 : |2 * r - 2 * z| < 1 := by
    rw [← mul_sub, abs_mul, abs_two]; linarith
  have key : ∀ k : ℤ, 2 * r = k → k = 2 * z := by
    intro k hk
    rw [hk] at h2
    have : |k - 2 * z| < 1 := by exact_mod_cast h2
    have := Int.abs_lt_one_iff.mp this
    omega
  rcases hr with rfl | rfl | rfl
  · have := key 0 (by norm_num)
    have : z = 0 := by omega
    rw [this]; simp
  · have := key 2 (by norm_num)
    have : z = 1 := by omega
    rw [this]; simp
  · have := key 1 (by norm_num)
    omega

/-! ## Runs -/

/-- Any sequence of metrics with at most 39 output bits keeps whole numbers apart if `epsilon` is 1e-12, so the claims
above hold for each call of the sequence. -/
theorem C116_runs (hr : Nearest A.rnd) (he : A.eps = 1 / 10 ^ 12) (calls : List (AddCall m))
    (hb : ∀ c ∈ calls, c.Bits 39) (s s' : CTab) (hs : s.Sep A.eps) (h : runCalls A dec calls s = .ok s') :
    s'.Sep A.eps := by
  have h0 : 0 < A.eps := by rw [he]; norm_num
  have h1 : A.eps ≤ 1 := by rw [he]; norm_num
  have h3 : A.eps ≤ 3 / 2 ^ 41 := by rw [he]; norm_num
  induction calls generalizing s with
  | nil => cases h; exact hs
  | cons c cs ih =>
    simp only [runCalls, bind, Except.bind] at h
    split at h
    · cases h
    · rename_i t ht
      exact ih (fun c hc => hb c (List.mem_cons_of_mem _ hc)) t
        (AddCall.run_sep hr h0 h1 h3 c (hb c List.mem_cons_self) s t hs ht) h

/-- A new manager has the constants 1 and 0 (and two infinite ones, which are close to nothing). -/
theorem C116_new_manager : (⟨[1, 0], 0⟩ : CTab).Sep (1 / 10 ^ 12) := by
  intro r hr z hz
  simp only [List.mem_cons, List.not_mem_nil, or_false] at hr
  have hz1 : |r - z| < 1 := hz.trans (by norm_num)
  rcases hr with rfl | rfl
  · have : |1 - z| < 1 := by exact_mod_cast hz1
    have := Int.abs_lt_one_iff.mp this
    have : z = 1 := by omega
    rw [this]; simp
  · have : |0 - z| < 1 := by exact_mod_cast hz1
    have := Int.abs_lt_one_iff.mp this
    have : z = 0 := by omega
    rw [this]; simp

example : (AddCall.wcre .baseTwo [(BDD.var 0 : BDD .id), .one] [.zero, .one]).Bits 39 ∧
    (AddCall.worstCase .baseTwo [(BDD.var 0 : BDD .id)] [.zero]).Bits 39 := by simp [AddCall.Bits]

/-- Why whole numbers must stand apart: once 3 - 2⁻⁴¹ is in the table (it is the quotient of numbers of 43 and 42 bits),
the conversion of 3 may take it instead, and `worst_case_error_add` of 3 and 0 truncates it to 2. -/
theorem C116_near_constants {rnd : ℚ → ℚ} (hr : Nearest rnd) :
    (3 - 1 / 2 ^ 41 : ℚ) = ((3 * 2 ^ 41 - 1 : Nat) : ℚ) / ((2 ^ 41 : Nat) : ℚ) ∧
    ∃ s', worstCaseErrorAddE ⟨rnd, 1 / 10 ^ 12, fun _ => 0⟩ .baseTwo
      [(BDD.one : BDD .id), .one] [.zero, .zero] ⟨[3 - 1 / 2 ^ 41, 1, 0], 0⟩ = .ok (2, s') := by
  refine ⟨by norm_num, ?_⟩
  have r0 : rnd 0 = 0 := by simpa using hr.nat53 0 (by norm_num)
  have r1 : rnd 1 = 1 := by simpa using hr.nat53 1 (by norm_num)
  have r2 : rnd 2 = 2 := by simpa using hr.nat53 2 (by norm_num)
  have r3 : rnd 3 = 3 := by simpa using hr.nat53 3 (by norm_num)
  have r4 : rnd 4 = 4 := by simpa using hr.nat53 4 (by norm_num)
  have r5 : rnd (6597069766655 / 2199023255552) = 6597069766655 / 2199023255552 := by
    refine hr.exact ?_ ?_
    · have := isDouble_nat_div 6597069766655 41 (by norm_num) (by norm_num)
      norm_num at this
      exact this
    · rw [abs_of_nonneg (by norm_num)]
      exact le_trans (by norm_num : (6597069766655 / 2199023255552 : ℚ) ≤ 2 ^ 2)
        (pow_le_pow_right₀ (by norm_num) (by norm_num))
  have ap : ∀ (op : ℚ → ℚ → ℚ) (A : AddEnv) (p q : ℚ) (s : CTab),
      ADD.applyE A op (.const p : ADD Mgr.id) (.const q) s =
        (.const (addConst A (op p q) s).1, (addConst A (op p q) s).2) := fun op A p q s => rfl
  have o1 : (ADD.ofBDD BDD.one : ADD Mgr.id) = .const 1 := rfl
  have o0 : (ADD.ofBDD BDD.zero : ADD Mgr.id) = .const 0 := rfl
  simp only [worstCaseErrorAddE, absoluteDifferenceAddE, bddForestToAddE, withSignBit, List.reverse, List.reverseAux,
    List.cons_append, List.nil_append, forestLoopE, ADD.addE, ADD.mulE, ADD.subE, ap, o1, o0, bind, Except.bind]
  norm_num [r0, r1, r2, r3, r4, r5, addConst]
  rw [addTerminalValues_const _ rfl]
  have ht : toU256 (6597069766655 / 2199023255552) = 2 := by decide +kernel
  exact ⟨_, by simp only [List.foldl, ht]; rfl⟩

end Verif

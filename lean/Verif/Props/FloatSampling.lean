import Verif.Proofs.FloatSampling
import Verif.Props.Average
import Verif.Props.Float

/-!
# C123 Sampling the error rate, with `double`s
-/

namespace Verif

variable {m : Mgr} {rnd : ℚ → ℚ}

/-! ### `error_rate_sampling` -/

/-- The fraction of the samples with an error, rounded once; 0 or 1 only if no or every sample has one. -/
theorem C123_sampling (hr : Nearest rnd) (f g : List (BDD m)) (readSize : Nat) (samples : Nat)
    (rs : Nat → Nat → Nat) (hl : f.length = g.length) (hf : Fits readSize f) (hg : Fits readSize g)
    (h1 : 1 ≤ samples) (h2 : samples < 2 ^ 31) (k : Nat)
    (hk : k = ((List.range samples).filter (fun j =>
        decide (bitsAt f (drawn readSize rs j) ≠ bitsAt g (drawn readSize rs j)))).length) :
    ∃ q, errorRateSamplingF rnd f g readSize samples rs = .ok q ∧ 0 ≤ q ∧ q ≤ 1 ∧
      |q - (k : ℚ) / samples| ≤ 1 / 2 ^ 53 * ((k : ℚ) / samples) ∧ (q = 0 ↔ k = 0) ∧ (q = 1 ↔ k = samples) := by
  have hpos : (0 : ℚ) < samples := by exact_mod_cast h1
  have hloop := samplingLoop_spec f g readSize rs hl hf hg samples 0
  simp only [Nat.zero_add] at hloop
  rw [← hk] at hloop
  have hks : k ≤ samples := by
    rw [hk]
    have := List.length_filter_le (fun j =>
        decide (bitsAt f (drawn readSize rs j) ≠ bitsAt g (drawn readSize rs j))) (List.range samples)
    rwa [List.length_range] at this
  have hkq : (k : ℚ) ≤ samples := by exact_mod_cast hks
  have hsq : (samples : ℚ) ≤ 2 ^ 31 := by exact_mod_cast h2.le
  have q0 : (0 : ℚ) ≤ k / samples := by positivity
  have q1 : (k : ℚ) / samples ≤ 1 := by rwa [div_le_one hpos]
  have hrel : |rnd ((k : ℚ) / samples) - k / samples| ≤ 1 / 2 ^ 53 * (k / samples) := by
    rcases Nat.eq_zero_or_pos k with rfl | hk0
    · rw [Nat.cast_zero, zero_div, hr.exact' isDouble_zero le_rfl (by norm_num)]
      simp
    · rw [mul_comm]
      refine hr.rel ?_ (q1.trans (one_le_pow₀ (by norm_num)))
      have : (1 : ℚ) / 2 ^ 31 ≤ k / samples := by
        rw [div_le_div_iff₀ (by norm_num) hpos]
        have : (1 : ℚ) ≤ k := by exact_mod_cast hk0
        linarith
      exact (one_div_le_one_div_of_le (by norm_num) (two_pow_le_big (by norm_num))).trans this
  refine ⟨rnd (k / samples), ?_, hr.nonneg q0 ((q1.trans (by norm_num : (1 : ℚ) ≤ 2)).trans two_le_big), hr.le_one q0 q1,
    hrel, ?_, ?_⟩
  · rw [errorRateSamplingF, if_neg (by simp [hl]), if_neg (by omega), Int.toNat_natCast, hloop]
    simp only [bind, Except.bind, fdiv]
    rw [Int.cast_natCast, hr.small k (by omega), hr.small samples (by omega), if_neg hpos.ne']
  · constructor
    · intro h
      by_contra hk0
      have : (0 : ℚ) < k / samples := div_pos (by exact_mod_cast Nat.pos_of_ne_zero hk0) hpos
      rw [h, zero_sub, abs_neg, abs_of_pos this] at hrel
      norm_num at hrel
      linarith
    · rintro rfl
      rw [Nat.cast_zero, zero_div]
      exact hr.exact' isDouble_zero le_rfl (by norm_num)
  · constructor
    · intro h
      by_contra hne
      have hlt : k + 1 ≤ samples := by omega
      have hlq : (k : ℚ) + 1 ≤ samples := by exact_mod_cast hlt
      rw [h, abs_of_nonneg (by linarith)] at hrel
      have : (1 : ℚ) / 2 ^ 31 ≤ 1 - k / samples := by
        rw [show (1 : ℚ) - k / samples = (samples - k) / samples by field_simp, div_le_div_iff₀ (by norm_num) hpos]
        linarith
      norm_num at hrel this
      linarith
    · rintro rfl
      rw [div_self hpos.ne']
      exact hr.exact' isDouble_one (by norm_num) (by norm_num)

/-- Three of four samples. -/
example : ∃ (f g : List (BDD Mgr.id)) (rs : Nat → Nat → Nat), f.length = g.length ∧ Fits 2 f ∧ Fits 2 g ∧
    3 = ((List.range 4).filter (fun j => decide (bitsAt f (drawn 2 rs j) ≠ bitsAt g (drawn 2 rs j)))).length :=
  ⟨[.var 0, .var 1], [.zero, .zero], fun i v => i / 2 ^ v, rfl, by decide +kernel, by decide +kernel, by decide +kernel⟩

/-! ### `error_rate_efficient_sampling` -/

theorem frac_bitRate (f g : List (BDD m)) (N : Nat) (hl : f.length = g.length) (hf : Fits N f) (hg : Fits N g) (i : Nat)
    (hi : i < (xorDiff f g).length) : (xorDiff f g)[i].edge.frac = bitRate N f g i := by
  have h := activations_eq f g N hl hf hg
  have hlen : (xorDiff f g).length = f.length := by simp [xorDiff, hl]
  have h1 : (activations (xorDiff f g))[i]? = some (i, (xorDiff f g)[i].edge.frac) := by
    simp [activations, hi]
  rw [h] at h1
  simp only [List.getElem?_map, List.getElem?_range (hlen ▸ hi), Option.map_some, Option.some.injEq, Prod.mk.injEq, true_and] at h1
  exact h1.symm

theorem activationF_spec (h : Nearest rnd) {N : Nat} (h1 : 1 ≤ N) (hN : N ≤ 1000) (b : BDD m) (hb : Fits N [b]) :
    IsDouble (activationF rnd (N - 1) b) ∧ 0 ≤ activationF rnd (N - 1) b ∧ activationF rnd (N - 1) b ≤ 1 ∧
    b.edge.frac * (1 - N * (1 / 2 ^ 53)) ≤ activationF rnd (N - 1) b ∧
    activationF rnd (N - 1) b ≤ b.edge.frac * (1 + N * (1 / 2 ^ 52)) ∧
    (activationF rnd (N - 1) b = 0 ∨ 1 / 2 ^ 1021 ≤ activationF rnd (N - 1) b) ∧
    (N ≤ 53 → activationF rnd (N - 1) b = b.edge.frac) := by
  have hh : b.edge.n.height ≤ N := DD.height_le_of_vars b.wf (hb.vars (DD.self_mem_reach _ _))
  have hn : N - 1 ≤ 1000 := by omega
  obtain ⟨-, r0, r1⟩ := cntF_range h hn b.edge.n b.edge.neg
  obtain ⟨t1, t2⟩ := cntF_rel h hn b.edge.n b.edge.neg b.wf (hh.trans hN)
  have hfb := frac_bounds (m := m) (a := b.edge) b.wf
  have e : (⟨b.edge.neg, b.edge.n⟩ : Edge) = b.edge := rfl
  rw [e] at t1 t2
  have hx : activationF rnd (N - 1) b = countMintermF rnd b (N - 1) / 2 ^ (N - 1) :=
    countMintermF_quot h hn b (hh.trans hN)
  have hp : (0 : ℚ) < 2 ^ (N - 1) := by positivity
  have x0 : 0 ≤ activationF rnd (N - 1) b := by rw [hx]; exact div_nonneg r0 hp.le
  have x1 : activationF rnd (N - 1) b ≤ 1 := by rw [hx, div_le_one hp]; exact r1
  have a1 : b.edge.frac * (1 - b.edge.n.height * (1 / 2 ^ 53)) ≤ activationF rnd (N - 1) b := by
    rw [hx, le_div_iff₀ hp, mul_right_comm]
    exact t1
  have a2 : activationF rnd (N - 1) b ≤ b.edge.frac * (1 + b.edge.n.height * (1 / 2 ^ 52)) := by
    rw [hx, div_le_iff₀ hp, mul_right_comm]
    exact t2
  obtain ⟨a3, a4⟩ := rel_mono hfb.1 hh a1 a2
  refine ⟨?_, x0, x1, a3, a4, ?_, fun h53 => ?_⟩
  · have hq0 : 0 ≤ countMintermF rnd b (N - 1) / 2 ^ (N - 1) := hx ▸ x0
    have hq1 : countMintermF rnd b (N - 1) / 2 ^ (N - 1) ≤ (1 : Nat) := by rw [Nat.cast_one]; exact hx ▸ x1
    exact h.isDouble _ (le_big_of_nat hq0 hq1 (by norm_num))
  · by_cases hz : b.edge.frac = 0
    · left
      rw [hz, zero_mul] at a2
      exact le_antisymm a2 x0
    · right
      have g1 := frac_ge (d := b.edge.n) (neg := b.edge.neg) hz
      rw [e] at g1
      have g2 := (rel_pos hfb.1 (hh.trans (hN.trans (by norm_num))) a1 a2).1
      have g3 : (1 : ℚ) / 2 ^ 1021 ≤ 1 / 2 ^ b.edge.n.height * (1 / 2) := by
        calc (1 : ℚ) / 2 ^ 1021 ≤ 1 / 2 ^ (b.edge.n.height + 1) :=
              one_div_le_one_div_of_le (by positivity) (pow_le_pow_right₀ (by norm_num) (by omega))
          _ = _ := by rw [pow_succ]; field_simp
      exact (g3.trans (mul_le_mul_of_nonneg_right g1 (by norm_num))).trans g2
  · rw [hx, countMintermF_exact h hn b (hh.trans h53), mul_div_assoc, div_self hp.ne', mul_one]

/-- The sorted list. -/
theorem actsF_facts (h : Nearest rnd) (f g : List (BDD m)) (N : Nat) (h1 : 1 ≤ N) (hN : N ≤ 1000) (hl : f.length = g.length)
    (hf : Fits N f) (hg : Fits N g) {acts : List (Nat × ℚ)} (hs : SortedActsF rnd (N - 1) (xorDiff f g) acts) :
    (∀ p ∈ acts, p.1 < (xorDiff f g).length ∧ IsDouble p.2 ∧ 0 ≤ p.2 ∧ p.2 ≤ 1 ∧
      bitRate N f g p.1 * (1 - N * (1 / 2 ^ 53)) ≤ p.2 ∧ p.2 ≤ bitRate N f g p.1 * (1 + N * (1 / 2 ^ 52)) ∧
      (p.2 = 0 ∨ 1 / 2 ^ 1021 ≤ p.2) ∧ (N ≤ 53 → p.2 = bitRate N f g p.1)) ∧
    (acts.map Prod.fst).Perm (List.range f.length) ∧
    (acts.map Prod.snd).Perm ((xorDiff f g).map (activationF rnd (N - 1))) := by
  have hlen : (xorDiff f g).length = f.length := by simp [xorDiff, hl]
  have hdiff := fits_xorDiff f g hf hg
  refine ⟨fun p hp => ?_, ?_, ?_⟩
  · have hp' := hs.1.mem_iff.mp hp
    obtain ⟨i, hi, hi'⟩ := List.mem_iff_getElem.mp hp'
    have hi2 : i < (xorDiff f g).length := by simpa [activationsF] using hi
    simp only [activationsF, List.getElem_zip, List.getElem_range, List.getElem_map] at hi'
    subst hi'
    have hb : Fits N [(xorDiff f g)[i]] := fun b hb => by
      rw [List.mem_singleton] at hb
      subst hb
      exact hdiff _ (List.getElem_mem hi2)
    have := activationF_spec h h1 hN (xorDiff f g)[i] hb
    rw [frac_bitRate f g N hl hf hg i hi2] at this
    exact ⟨hi2, this⟩
  · have := hs.1.map Prod.fst
    rwa [activationsF, List.map_fst_zip (by simp), hlen] at this
  · have := hs.1.map Prod.snd
    rwa [activationsF, List.map_snd_zip (by simp)] at this

/-- The result if the denominator is not 0 and the numbers of samples fit. -/
theorem efficientF_core (h : Nearest rnd) (f g : List (BDD m)) (N : Nat) (samples : Nat) (h1 : 1 ≤ N) (hN : N ≤ 1000)
    (hl : f.length = g.length) (hf : Fits N f) (hg : Fits N g) (hlen : f.length ≤ 2 ^ 53) {idx0 : Nat} {act0 : ℚ}
    {rest : List (Nat × ℚ)} (hs : SortedActsF rnd (N - 1) (xorDiff f g) ((idx0, act0) :: rest))
    (rs : Nat → Nat → Nat → Nat) {denom : ℚ}
    (hden : denom = rnd (sumF rnd 0 ((xorDiff f g).map (activationF rnd (N - 1))) - act0)) (hd : denom ≠ 0)
    (hidx : ∀ p ∈ rest, 0 ≤ rnd (rnd ((samples : ℚ) * p.2) / denom) ∧ rnd (rnd ((samples : ℚ) * p.2) / denom) < 2 ^ 31)
    (hsm : samples < 2 ^ 31) :
    ∃ q, errorRateEfficientSamplingF rnd f g N samples ((idx0, act0) :: rest) rs = .ok (min 1 q) ∧ act0 ≤ q ∧
      q ≤ sumF rnd act0 (rest.map Prod.snd) := by
  obtain ⟨hmem, hfst, hsnd⟩ := actsF_facts h f g N h1 hN hl hf hg hs
  have hd0 := (hmem (idx0, act0) (by simp))
  simp only at hd0
  have hrl : rest.length + 1 = f.length := by
    have := hfst.length_eq
    simpa using this
  have hv : vget (xorDiff f g) idx0 = .ok (xorDiff f g)[idx0] := by
    rw [vget_eq _ _ ((xorDiff f g)[idx0]) hd0.1, List.getD_eq_getElem _ _ hd0.1]
  have hdiff := fits_xorDiff f g hf hg
  obtain ⟨q, hq, q1, q2⟩ := effLoopF_bounds h (xorDiff f g) N hdiff samples denom hd rs rest 1 [(xorDiff f g)[idx0]] act0 1
    (fun b hb => by
      rw [List.mem_singleton] at hb
      subst hb
      exact hdiff _ (List.getElem_mem _)) hd0.2.1 hd0.2.2.1 (by rw [Nat.cast_one]; exact hd0.2.2.2.1) (by omega)
    (fun p hp => by
      obtain ⟨i1, i2, i3, i4, -⟩ := hmem p (by simp [hp])
      rw [Int.cast_natCast, h.small samples (by omega)]
      exact ⟨i1, i2, i3, i4, hidx p hp⟩)
  refine ⟨q, ?_, q1, q2⟩
  unfold errorRateEfficientSamplingF
  rw [if_neg (by simp [hl])]
  dsimp only
  rw [if_neg (by omega), if_neg (by omega)]
  rw [← hden]
  simp only [hv, bind, Except.bind, hq]

theorem bitRate_top (f g : List (BDD m)) (N : Nat) (hl : f.length = g.length) {k : Nat} (hk : f.length ≤ k) :
    bitRate N f g k = 0 := by
  rw [bitRate, ← mean_const N 0]
  apply mean_congr
  intro x
  rw [List.getElem?_eq_none (by simp [bitsAt]; omega), List.getElem?_eq_none (by simp [bitsAt]; omega), if_pos rfl, mean_const]

theorem acts_sum (f g : List (BDD m)) (N : Nat) {acts : List (Nat × ℚ)}
    (hp : (acts.map Prod.fst).Perm (List.range f.length)) :
    (acts.map (fun p => bitRate N f g p.1)).sum = ((List.range f.length).map (bitRate N f g)).sum := by
  have := (hp.map (bitRate N f g)).sum_eq
  rwa [List.map_map] at this

/-- The number of samples of one bit. -/
theorem index_range (h : Nearest rnd) {S c : Nat} {act D : ℚ} (a0 : 0 ≤ act) (a1 : act ≤ 1)
    (hsmall : act = 0 ∨ 1 / 2 ^ 1021 ≤ act) (hD : 0 < D) (hle : act ≤ c * D) (hc : c * S + 1 < 2 ^ 31) :
    0 ≤ rnd (rnd ((S : ℚ) * act) / D) ∧ rnd (rnd ((S : ℚ) * act) / D) < 2 ^ 31 := by
  have hS0 : (0 : ℚ) ≤ S := by positivity
  have hx0 : 0 ≤ (S : ℚ) * act := mul_nonneg hS0 a0
  have hcS : (c : ℚ) * S + 1 < 2 ^ 31 := by exact_mod_cast hc
  rcases Nat.eq_zero_or_pos c with rfl | hc1
  · have hz : act = 0 := by
      rw [Nat.cast_zero, zero_mul] at hle
      exact le_antisymm hle a0
    have hr0 : rnd 0 = 0 := h.exact' isDouble_zero le_rfl (by norm_num)
    rw [hz, mul_zero, hr0, zero_div, hr0]
    norm_num
  have hSb : (S : ℚ) < 2 ^ 31 := by
    have : S < 2 ^ 31 := by
      have := Nat.le_mul_of_pos_left S hc1
      omega
    exact_mod_cast this
  have hx1 : (S : ℚ) * act ≤ (2 ^ 31 : Nat) := by
    push_cast
    exact (mul_le_of_le_one_right hS0 a1).trans hSb.le
  have hbig := le_big_of_nat hx0 hx1 (by norm_num)
  have hr0 : 0 ≤ rnd ((S : ℚ) * act) := h.nonneg hx0 ((le_abs_self _).trans hbig)
  have hup : rnd ((S : ℚ) * act) ≤ (S : ℚ) * act * (1 + 1 / 2 ^ 53) := by
    have key : (S : ℚ) * act = 0 ∨ 1 / 2 ^ 1022 ≤ (S : ℚ) * act := by
      rcases hsmall with hz | hsm
      · left; rw [hz, mul_zero]
      rcases Nat.eq_zero_or_pos S with rfl | hSp
      · left; simp
      · right
        have h1 : (1 : ℚ) ≤ S := by exact_mod_cast hSp
        exact ((one_div_le_one_div_of_le (by positivity) (two_pow_le_big (by norm_num))).trans hsm).trans
          (le_mul_of_one_le_left a0 h1)
    rcases key with hz | hx
    · rw [hz, h.exact' isDouble_zero le_rfl (by norm_num), zero_mul]
    · have hb : (S : ℚ) * act ≤ 2 ^ 1022 := by
        have e : ((2 ^ 31 : Nat) : ℚ) = 2 ^ 31 := by norm_num
        rw [e] at hx1
        exact hx1.trans (two_pow_le_big (by norm_num))
      have := (abs_le.mp (h.rel hx hb)).2
      rw [mul_add, mul_one]
      linarith only [this]
  have hq0 : 0 ≤ rnd ((S : ℚ) * act) / D := div_nonneg hr0 hD.le
  have hq1 : rnd ((S : ℚ) * act) / D ≤ (c * S + 1 : Nat) := by
    rw [div_le_iff₀ hD]
    refine hup.trans ?_
    have h1 : (S : ℚ) * act ≤ c * S * D := by
      calc (S : ℚ) * act ≤ S * (c * D) := mul_le_mul_of_nonneg_left hle hS0
        _ = c * S * D := by ring
    push_cast
    have h2 : (c : ℚ) * S * D * (1 + 1 / 2 ^ 53) ≤ (c * S + 1) * D := by
      have : (c : ℚ) * S * (1 + 1 / 2 ^ 53) ≤ c * S + 1 := by
        norm_num at hcS ⊢
        linarith only [hcS]
      calc (c : ℚ) * S * D * (1 + 1 / 2 ^ 53) = c * S * (1 + 1 / 2 ^ 53) * D := by ring
        _ ≤ _ := mul_le_mul_of_nonneg_right this hD.le
    exact (mul_le_mul_of_nonneg_right h1 (by positivity)).trans h2
  have hbig2 := le_big_of_nat hq0 hq1 (by omega)
  refine ⟨h.nonneg hq0 ((le_abs_self _).trans hbig2), ?_⟩
  have := h.rnd_le hbig2 (isDouble_nat _ (by omega)) hq1
  refine this.trans_lt ?_
  exact_mod_cast hc

/-- If the rates and their sum are `double`s, the estimate keeps the bounds of C38: it is at least the rate of every bit
and at most their sum and 1. -/
theorem C123_efficient_exact (hr : Nearest rnd) (f g : List (BDD m)) (readSize samples : Nat)
    (acts : List (Nat × ℚ)) (rs : Nat → Nat → Nat → Nat) (hl : f.length = g.length)
    (hf : Fits readSize f) (hg : Fits readSize g) (h0 : 1 ≤ readSize) (hsize : f.length * 2 ^ readSize ≤ 2 ^ 53)
    (hs : samples ≤ 2 ^ 31 - 2) (hacts : SortedActsF rnd (readSize - 1) (xorDiff f g) acts)
    (htwo : ∃ i j, i < j ∧ j < f.length ∧ 0 < bitRate readSize f g i ∧ 0 < bitRate readSize f g j) :
    ∃ q, errorRateEfficientSamplingF rnd f g readSize samples acts rs = .ok q ∧
      (∀ i, bitRate readSize f g i ≤ q) ∧ q ≤ 1 ∧
      q ≤ ((List.range f.length).map (bitRate readSize f g)).sum := by
  obtain ⟨i, j, hij, hj, hi0, hj0⟩ := htwo
  have h53 : readSize ≤ 53 := by
    by_contra hc
    have h2 : 2 ^ 54 ≤ 2 ^ readSize := Nat.pow_le_pow_right (by norm_num) (by omega)
    have h3 : 1 * 2 ^ readSize ≤ f.length * 2 ^ readSize := Nat.mul_le_mul_right _ (by omega)
    omega
  have hN : readSize ≤ 1000 := by omega
  have hlen : f.length ≤ 2 ^ 53 := le_trans (Nat.le_mul_of_pos_right _ (by positivity)) hsize
  obtain ⟨hmem, hfst, hsnd⟩ := actsF_facts hr f g readSize h0 hN hl hf hg hacts
  have hll := hfst.length_eq
  rw [List.length_map, List.length_range] at hll
  match acts, hacts with
  | [], _ => simp at hll; omega
  | (idx0, act0) :: rest, hacts =>
    have hrl : rest.length + 1 = f.length := by simpa using hll
    have hdy : ∀ p ∈ (xorDiff f g).map (activationF rnd (readSize - 1)), ∃ k : Nat, k ≤ 2 ^ readSize ∧ p = k / 2 ^ readSize := by
      intro p hp
      obtain ⟨b, hb, rfl⟩ := List.mem_map.mp hp
      have hfb : Fits readSize [b] := fun c hc => by
        rw [List.mem_singleton] at hc
        subst hc
        exact fits_xorDiff f g hf hg _ hb
      rw [(activationF_spec hr h0 hN b hfb).2.2.2.2.2.2 h53]
      exact frac_dyadic b.edge.n b.edge.neg (DD.height_le_of_vars b.wf (hfb.vars (DD.self_mem_reach _ _)))
    have hdy' : ∀ p ∈ act0 :: rest.map Prod.snd, ∃ k : Nat, k ≤ 2 ^ readSize ∧ p = k / 2 ^ readSize :=
      fun p hp => hdy p (hsnd.mem_iff.mp (by simpa using hp))
    have hsum0 : ((xorDiff f g).map (activationF rnd (readSize - 1))).sum = act0 + (rest.map Prod.snd).sum := by
      rw [← hsnd.sum_eq]; simp
    have hlx : ((xorDiff f g).map (activationF rnd (readSize - 1))).length = f.length := by simp [xorDiff, hl]
    have hmax : sumF rnd 0 ((xorDiff f g).map (activationF rnd (readSize - 1))) = act0 + (rest.map Prod.snd).sum := by
      have := (sumF_exact hr (N := readSize) (by omega) _ 0 0 hdy le_rfl (by rw [hlx]; omega)).1
      rw [Nat.cast_zero, zero_div, zero_add, hsum0] at this
      exact this
    obtain ⟨k0, hk0, hk0'⟩ := hdy' act0 (by simp)
    have hszr : 2 ^ readSize + rest.length * 2 ^ readSize ≤ 2 ^ 53 := by
      have : (rest.length + 1) * 2 ^ readSize ≤ 2 ^ 53 := by rw [hrl]; exact hsize
      rw [Nat.succ_mul] at this
      omega
    obtain ⟨hs1, -⟩ := sumF_exact hr (N := readSize) (by omega) (rest.map Prod.snd) k0 (2 ^ readSize)
      (fun p hp => hdy' p (by simp [hp])) hk0 (by rw [List.length_map]; exact hszr)
    obtain ⟨-, kd, hkd, hkd'⟩ := sumF_exact hr (N := readSize) (by omega) (rest.map Prod.snd) 0 0
      (fun p hp => hdy' p (by simp [hp])) le_rfl (by rw [List.length_map]; omega)
    rw [Nat.cast_zero, zero_div, zero_add] at hkd'
    rw [List.length_map] at hkd
    rw [← hk0'] at hs1
    have hnn : ∀ q ∈ rest.map Prod.snd, 0 ≤ q := by
      intro q hq
      obtain ⟨p, hp, rfl⟩ := List.mem_map.mp hq
      exact (hmem p (by simp [hp])).2.2.1
    have hin : ∀ k < f.length, (k, bitRate readSize f g k) ∈ (idx0, act0) :: rest := by
      intro k hk
      obtain ⟨p, hp, rfl⟩ := List.mem_map.mp (hfst.mem_iff.mpr (List.mem_range.mpr hk))
      rw [← (hmem p hp).2.2.2.2.2.2.2 h53]
      exact hp
    have hpos : 0 < (rest.map Prod.snd).sum := by
      have hex : ∃ p ∈ rest, 0 < p.2 := by
        rcases List.mem_cons.mp (hin j hj) with h | h
        · rcases List.mem_cons.mp (hin i (by omega)) with h' | h'
          · have := (Prod.mk.inj h).1
            have := (Prod.mk.inj h').1
            omega
          · exact ⟨_, h', hi0⟩
        · exact ⟨_, h, hj0⟩
      obtain ⟨p, hp, hp0⟩ := hex
      exact lt_of_lt_of_le hp0 (List.single_le_sum hnn _ (List.mem_map_of_mem hp))
    have hden : rnd (sumF rnd 0 ((xorDiff f g).map (activationF rnd (readSize - 1))) - act0) = (rest.map Prod.snd).sum := by
      rw [hmax, add_sub_cancel_left, hkd']
      refine hr.exact (isDouble_nat_div _ _ (by omega) (by omega)) ?_
      exact le_big_of_nat (K := kd) (by positivity) (div_le_self (by positivity) (one_le_pow₀ (by norm_num))) (by omega)
    obtain ⟨q, hq, q1, q2⟩ := efficientF_core hr f g readSize samples h0 hN hl hf hg hlen hacts rs hden.symm hpos.ne'
      (fun p hp => by
        obtain ⟨-, -, p0, p1, -, -, p2, -⟩ := hmem p (by simp [hp])
        refine index_range hr (c := 1) p0 p1 p2 hpos ?_ (by omega)
        rw [Nat.cast_one, one_mul]
        exact List.single_le_sum hnn _ (List.mem_map_of_mem hp)) (by omega)
    rw [hs1] at q2
    have hall := acts_sum f g readSize hfst
    have heq : ((idx0, act0) :: rest).map (fun p => bitRate readSize f g p.1) = ((idx0, act0) :: rest).map Prod.snd :=
      List.map_congr_left fun p hp => ((hmem p hp).2.2.2.2.2.2.2 h53).symm
    rw [heq, List.map_cons, List.sum_cons] at hall
    refine ⟨min 1 q, hq, fun k => le_min (bitRate_bounds _ _ _ _).2 (le_trans ?_ q1), min_le_left _ _,
      (min_le_right _ _).trans (q2.trans hall.le)⟩
    by_cases hk : k < f.length
    · rcases List.mem_cons.mp (hin k hk) with h | h
      · exact (Prod.mk.inj h).2.le
      · exact (List.pairwise_cons.mp hacts.2).1 _ h
    · rw [bitRate_top f g readSize hl (by omega)]
      exact (hmem (idx0, act0) (by simp)).2.2.1

/-- In general the bounds hold up to the rounding of the rates and their sum, provided that the second rate is not lost
when it is added to the first: two bits have rates of at least `2 ^ -50` of the largest. -/
theorem C123_efficient_partial (hr : Nearest rnd) (f g : List (BDD m)) (readSize samples : Nat)
    (acts : List (Nat × ℚ)) (rs : Nat → Nat → Nat → Nat) (hl : f.length = g.length)
    (hf : Fits readSize f) (hg : Fits readSize g) (h0 : 1 ≤ readSize) (hN : readSize ≤ 1000) (hlen : f.length ≤ 1500)
    (hs : samples < 2 ^ 30) (hacts : SortedActsF rnd (readSize - 1) (xorDiff f g) acts)
    (htwo : ∃ i j, i < j ∧ j < f.length ∧ 0 < bitRate readSize f g i ∧ 0 < bitRate readSize f g j ∧
      ∀ k, bitRate readSize f g k ≤ 2 ^ 50 * bitRate readSize f g i ∧ bitRate readSize f g k ≤ 2 ^ 50 * bitRate readSize f g j) :
    ∃ q, errorRateEfficientSamplingF rnd f g readSize samples acts rs = .ok q ∧
      (∀ i, bitRate readSize f g i * (1 - readSize / 2 ^ 53) ≤ q) ∧ q ≤ 1 ∧
      q ≤ ((List.range f.length).map (bitRate readSize f g)).sum * (1 + (readSize + f.length) / 2 ^ 52) := by
  obtain ⟨i, j, hij, hj, hi0, hj0, hbig⟩ := htwo
  obtain ⟨hmem, hfst, hsnd⟩ := actsF_facts hr f g readSize h0 hN hl hf hg hacts
  have hll := hfst.length_eq
  rw [List.length_map, List.length_range] at hll
  have hNq : (readSize : ℚ) ≤ 1000 := by exact_mod_cast hN
  have hNq0 : (0 : ℚ) ≤ readSize := by positivity
  match acts, hacts with
  | [], _ => simp at hll; omega
  | [_], _ => simp at hll; omega
  | (idx0, act0) :: (idx1, act1) :: rest, hacts =>
    have hrl : rest.length + 2 = f.length := by simpa using hll
    obtain ⟨-, d0, a00, a01, al0, au0, as0, -⟩ := hmem (idx0, act0) (by simp)
    obtain ⟨-, d1, a10, a11, al1, au1, as1, -⟩ := hmem (idx1, act1) (by simp)
    simp only at d0 a00 a01 al0 au0 as0 d1 a10 a11 al1 au1 as1
    have hsort := List.pairwise_cons.mp hacts.2
    have hsort2 := List.pairwise_cons.mp hsort.2
    have h10 : act1 ≤ act0 := hsort.1 (idx1, act1) (by simp)
    have hle1 : ∀ p ∈ (idx1, act1) :: rest, p.2 ≤ act1 := fun p hp => by
      rcases List.mem_cons.mp hp with rfl | hp
      · exact le_rfl
      · exact hsort2.1 p hp
    have hin : ∀ k < f.length, ∃ p ∈ (idx0, act0) :: (idx1, act1) :: rest, p.1 = k := by
      intro k hk
      obtain ⟨p, hp, hk'⟩ := List.mem_map.mp (hfst.mem_iff.mpr (List.mem_range.mpr hk))
      exact ⟨p, hp, hk'⟩
    -- the second rate is not negligible
    have hratio : ∀ k, 0 < bitRate readSize f g k → (∀ l, bitRate readSize f g l ≤ 2 ^ 50 * bitRate readSize f g k) →
        (∃ p ∈ (idx1, act1) :: rest, p.1 = k) → 0 < act1 ∧ act0 ≤ 2 ^ 51 * act1 := by
      rintro k hk hl ⟨p, hp, rfl⟩
      obtain ⟨-, -, -, -, l1, -⟩ := hmem p (List.mem_cons_of_mem _ hp)
      have l2 := hle1 p hp
      have l3 := hl idx0
      generalize bitRate readSize f g p.1 = R at *
      generalize bitRate readSize f g idx0 = Q at *
      have e1 : R * readSize ≤ R * 1000 := mul_le_mul_of_nonneg_left hNq hk.le
      have e2 : Q * readSize ≤ Q * 1000 := by
        rcases le_or_gt 0 Q with h | h
        · exact mul_le_mul_of_nonneg_left hNq h
        · exfalso
          have : Q * (1 + readSize * (1 / 2 ^ 52)) < 0 := mul_neg_of_neg_of_pos h (by positivity)
          linarith only [this, au0, a00]
      clear as0 as1 hmem
      norm_num at l1 au0 l3 ⊢
      constructor <;> linarith only [l1, l2, l3, au0, e1, e2, hk]
    have hkey : 0 < act1 ∧ act0 ≤ 2 ^ 51 * act1 := by
      obtain ⟨pi, hpi, hpi'⟩ := hin i (by omega)
      obtain ⟨pj, hpj, hpj'⟩ := hin j hj
      rcases List.mem_cons.mp hpi with h | h
      · rcases List.mem_cons.mp hpj with h' | h'
        · have : i = j := by rw [← hpi', ← hpj', h, h']
          omega
        · exact hratio j hj0 (fun l => (hbig l).2) ⟨pj, h', hpj'⟩
      · exact hratio i hi0 (fun l => (hbig l).1) ⟨pi, h, hpi'⟩
    obtain ⟨hpos1, hkey⟩ := hkey
    have as1' : 1 / 2 ^ 1021 ≤ act1 := as1.resolve_left hpos1.ne'
    obtain ⟨M, hM⟩ : ∃ M, M = sumF rnd 0 ((xorDiff f g).map (activationF rnd (readSize - 1))) := ⟨_, rfl⟩
    have hpc : ∀ p ∈ (xorDiff f g).map (activationF rnd (readSize - 1)), 0 ≤ p ∧ p ≤ 1 := fun p hp => by
      obtain ⟨r, hr', rfl⟩ := List.mem_map.mp (hsnd.mem_iff.mpr hp)
      obtain ⟨-, -, u, v, -⟩ := hmem r hr'
      exact ⟨u, v⟩
    have hlx : ((xorDiff f g).map (activationF rnd (readSize - 1))).length = f.length := by simp [xorDiff, hl]
    have hMr := sumF_range hr _ 0 0 isDouble_zero le_rfl (by simp) (by rw [hlx]; omega) hpc
    rw [← hM, hlx, zero_add] at hMr
    have hpair : rnd (act0 + act1) ≤ M := by
      have hsub : List.Subperm [act0, act1] ((xorDiff f g).map (activationF rnd (readSize - 1))) := by
        refine List.Subperm.trans (List.Sublist.subperm ?_) hsnd.subperm
        simp
      obtain ⟨l', hp', hs'⟩ := hsub
      have hlen' := hp'.length_eq
      match l', hlen' with
      | [x, y], _ =>
        have hxy : x + y = act0 + act1 := by
          have := hp'.sum_eq
          simpa using this
        have hx : IsDouble x := by
          have : x ∈ [act0, act1] := hp'.mem_iff.mp (by simp)
          simp only [List.mem_cons, List.not_mem_nil, or_false] at this
          rcases this with rfl | rfl
          · exact d0
          · exact d1
        rw [← hxy, hM]
        exact le_sumF_pair hr hx _ 0 0 isDouble_zero le_rfl (by simp) (by rw [hlx]; omega) hpc hs'
    have hgap : act1 / 2 ≤ M - act0 := by
      have hrel := hr.rel (q := act0 + act1)
        (((one_div_le_one_div_of_le (by positivity) (two_pow_le_big (by norm_num))).trans as1').trans
          (le_add_of_nonneg_left a00))
        ((by linarith only [a01, a11] : act0 + act1 ≤ 2).trans ((by norm_num : (2 : ℚ) = 2 ^ 1).le.trans (two_pow_le_big (by norm_num))))
      have := (abs_le.mp hrel).1
      clear as0 as1 as1' hmem
      norm_num at this hkey
      linarith only [this, hkey, hpair, h10]
    have hMd : act1 / 2 ≤ rnd (M - act0) := by
      refine hr.le_rnd ?_ (isDouble_half d1 as1') hgap
      exact le_big_of_nat (K := f.length) (by linarith only [hgap, hpos1]) (by linarith only [hMr.2.2, a00]) (by omega)
    have hpos : 0 < rnd (M - act0) := by linarith only [hMd, hpos1]
    obtain ⟨q, hq, q1, q2⟩ := efficientF_core hr f g readSize samples h0 hN hl hf hg (by omega) hacts rs (denom := rnd (M - act0))
      (by rw [hM]) hpos.ne'
      (fun p hp => by
        obtain ⟨-, -, p0, p1, -, -, p2, -⟩ := hmem p (List.mem_cons_of_mem _ hp)
        refine index_range hr (c := 2) p0 p1 p2 hpos ?_ (by omega)
        push_cast
        linarith only [hMd, hle1 p hp]) (by omega)
    have hsr := sumF_rel hr (((idx1, act1) :: rest).map (fun p => (p.2, bitRate readSize f g p.1))) act0
      (bitRate readSize f g idx0) readSize 1 (by simp; omega) d0 a00 (by simpa using a01) (by simp; omega)
      (as0.imp_right (fun h => (one_div_le_one_div_of_le (by positivity) (two_pow_le_big (by norm_num))).trans h))
      (bitRate_bounds _ _ _ _).1 al0 au0 (fun p hp => by
        obtain ⟨r, hr', rfl⟩ := List.mem_map.mp hp
        obtain ⟨-, -, u1, u2, u3, u4, u5, -⟩ := hmem r (List.mem_cons_of_mem _ hr')
        exact ⟨u1, u2, (bitRate_bounds _ _ _ _).1, u5.imp_right
          (fun h => (one_div_le_one_div_of_le (by positivity) (two_pow_le_big (by norm_num))).trans h), u3, u4⟩)
    rw [List.map_map, List.map_map, List.length_map] at hsr
    have hall := acts_sum f g readSize hfst
    rw [List.map_cons, List.sum_cons] at hall
    have hfun : (Prod.snd ∘ fun p : Nat × ℚ => (p.2, bitRate readSize f g p.1)) = fun p => bitRate readSize f g p.1 := rfl
    have hfun2 : (Prod.fst ∘ fun p : Nat × ℚ => (p.2, bitRate readSize f g p.1)) = Prod.snd := rfl
    rw [hfun, hfun2, hall] at hsr
    have hsum0 : 0 ≤ ((List.range f.length).map (bitRate readSize f g)).sum := by
      apply List.sum_nonneg
      intro x hx
      obtain ⟨k, -, rfl⟩ := List.mem_map.mp hx
      exact (bitRate_bounds _ _ _ _).1
    refine ⟨min 1 q, hq, fun k => ?_, min_le_left _ _, (min_le_right _ _).trans (q2.trans (hsr.trans ?_))⟩
    · have hk1 : bitRate readSize f g k * (1 - readSize / 2 ^ 53) ≤ act0 := by
        by_cases hk : k < f.length
        · obtain ⟨p, hp, rfl⟩ := hin k hk
          obtain ⟨-, -, -, -, l1, -⟩ := hmem p hp
          rw [mul_one_div] at l1
          refine l1.trans ?_
          rcases List.mem_cons.mp hp with rfl | hp
          · exact le_rfl
          · exact hsort.1 p hp
        · rw [bitRate_top f g readSize hl (by omega), zero_mul]
          exact a00
      exact le_min (hk1.trans a01) (hk1.trans q1)
    · apply mul_le_mul_of_nonneg_left _ hsum0
      have : ((readSize + ((idx1, act1) :: rest).length : Nat) : ℚ) ≤ readSize + f.length := by
        exact_mod_cast (by rw [List.length_cons]; omega : readSize + ((idx1, act1) :: rest).length ≤ readSize + f.length)
      rw [mul_one_div]
      gcongr

/-- One-bit functions: the error rate, rounded. -/
theorem C123_efficient_one_bit (hr : Nearest rnd) (f g : BDD m) (readSize : Nat) (samples : Int)
    (acts : List (Nat × ℚ)) (rs : Nat → Nat → Nat → Nat) (hf : Fits readSize [f]) (hg : Fits readSize [g]) (h0 : 1 ≤ readSize)
    (hN : readSize ≤ 1000) (hacts : SortedActsF rnd (readSize - 1) (xorDiff [f] [g]) acts) :
    ∃ q, errorRateEfficientSamplingF rnd [f] [g] readSize samples acts rs = .ok q ∧ 0 ≤ q ∧ q ≤ 1 ∧
      |q - errRate readSize f.eval g.eval| ≤ readSize / 2 ^ 52 * errRate readSize f.eval g.eval ∧
      (readSize ≤ 53 → q = errRate readSize f.eval g.eval) := by
  obtain ⟨hmem, hfst, hsnd⟩ := actsF_facts hr [f] [g] readSize h0 hN rfl hf hg hacts
  have hll := hfst.length_eq
  rw [List.length_map, List.length_range, List.length_singleton] at hll
  match acts, hll with
  | [(idx0, act0)], _ =>
    obtain ⟨hi, -, a0, a1, l1, l2, -, l3⟩ := hmem (idx0, act0) (by simp)
    have hi0 : idx0 = 0 := by simpa [xorDiff] using hi
    subst hi0
    have hb : bitRate readSize [f] [g] 0 = errRate readSize f.eval g.eval := mean_congr _ (fun x => by simp [bitsAt])
    simp only [hb] at a0 a1 l1 l2 l3
    refine ⟨act0, ?_, a0, a1, ?_, l3⟩
    · unfold errorRateEfficientSamplingF
      rw [if_neg (by simp)]
      dsimp only
      rw [if_neg (by omega), if_neg (by omega)]
      simp only [xorDiff, List.zipWith_cons_cons, vget, bind, Except.bind, effLoopF]
      rw [min_eq_right a1]
    · have hnn := (bitRate_bounds readSize [f] [g] 0).1
      rw [hb] at hnn
      generalize errRate readSize f.eval g.eval = R at *
      have hRN : 0 ≤ R * readSize := by positivity
      norm_num at l1 l2 ⊢
      rw [abs_le]
      constructor <;> linarith only [l1, l2, hRN]

/-- As in C38: with at least two bits of which at most one ever differs the code divides 0 by 0. -/
theorem C123_efficient_undefined (hr : Nearest rnd) (f g : List (BDD m)) (readSize : Nat) (samples : Int)
    (acts : List (Nat × ℚ)) (rs : Nat → Nat → Nat → Nat) (hl : f.length = g.length) (hf : Fits readSize f)
    (hg : Fits readSize g) (h0 : 1 ≤ readSize) (hN : readSize ≤ 1000) (hlen : f.length ≤ 2 ^ 53)
    (hacts : SortedActsF rnd (readSize - 1) (xorDiff f g) acts) (hlen2 : 2 ≤ f.length)
    (hone : ∀ i j, i < j → j < f.length → bitRate readSize f g i = 0 ∨ bitRate readSize f g j = 0) :
    errorRateEfficientSamplingF rnd f g readSize samples acts rs = .error .ub := by
  obtain ⟨hmem, hfst, hsnd⟩ := actsF_facts hr f g readSize h0 hN hl hf hg hacts
  have hll := hfst.length_eq
  rw [List.length_map, List.length_range] at hll
  have hzero : ∀ p ∈ acts, bitRate readSize f g p.1 = 0 → p.2 = 0 := fun p hp hz => by
    obtain ⟨-, -, a0, -, -, l2, -⟩ := hmem p hp
    rw [hz, zero_mul] at l2
    exact le_antisymm l2 a0
  match acts, hll with
  | (idx0, act0) :: (idx1, act1) :: rest, hll =>
    obtain ⟨hi0, d0, a00, a01, -⟩ := hmem (idx0, act0) (by simp)
    simp only at hi0 d0 a00 a01
    have hnd : (((idx0, act0) :: (idx1, act1) :: rest).map Prod.fst).Nodup := hfst.nodup_iff.mpr List.nodup_range
    have hlx : (xorDiff f g).length = f.length := by simp [xorDiff, hl]
    have hz : ∀ p ∈ (idx1, act1) :: rest, p.2 = 0 := fun p hp => by
      have hp' : p ∈ (idx0, act0) :: (idx1, act1) :: rest := List.mem_cons_of_mem _ hp
      have hne : p.1 ≠ idx0 := fun he => by
        rw [List.map_cons, List.nodup_cons] at hnd
        have h2 := List.mem_map_of_mem (f := Prod.fst) hp
        rw [he] at h2
        exact hnd.1 h2
      have hpi := (hmem p hp').1
      have hle := (List.pairwise_cons.mp hacts.2).1 p hp
      have key : bitRate readSize f g p.1 = 0 ∨ bitRate readSize f g idx0 = 0 := by
        rcases Nat.lt_or_gt_of_ne hne with h | h
        · exact hone _ _ h (hlx ▸ hi0)
        · exact (hone _ _ h (hlx ▸ hpi)).symm
      rcases key with h | h
      · exact hzero p hp' h
      · have := hzero (idx0, act0) (by simp) h
        simp only at this hle
        rw [this] at hle
        exact le_antisymm hle (hmem p hp').2.2.1
    have hpc : ∀ p ∈ (xorDiff f g).map (activationF rnd (readSize - 1)), 0 ≤ p ∧ p ≤ 1 := fun p hp => by
      obtain ⟨r, hr', rfl⟩ := List.mem_map.mp (hsnd.mem_iff.mpr hp)
      obtain ⟨-, -, u, v, -⟩ := hmem r hr'
      exact ⟨u, v⟩
    have hsum : sumF rnd 0 ((xorDiff f g).map (activationF rnd (readSize - 1))) = act0 := by
      rw [sumF_filter hr _ 0 0 isDouble_zero le_rfl (by simp) (by rw [List.length_map, hlx]; omega) hpc]
      have hp := hsnd.filter (fun p => decide (p ≠ 0))
      have hfil : (((idx1, act1) :: rest).map Prod.snd).filter (fun p => decide (p ≠ 0)) = [] := by
        rw [List.filter_eq_nil_iff]
        intro q hq
        obtain ⟨p, hpm, rfl⟩ := List.mem_map.mp hq
        simp [hz p hpm]
      rw [List.map_cons] at hp
      have hr0 : rnd act0 = act0 := hr.exact d0 (le_big_of_nat (K := 1) a00 (by simpa using a01) (by norm_num))
      by_cases ha : act0 = 0
      · rw [List.filter_cons_of_neg (by simp [ha]), hfil] at hp
        rw [List.nil_perm.mp hp, sumF, ha]
      · rw [List.filter_cons_of_pos (by simpa using ha), hfil] at hp
        rw [List.singleton_perm.mp hp |>.symm, sumF, sumF, zero_add, hr0]
    have hv : vget (xorDiff f g) idx0 = .ok (xorDiff f g)[idx0] := by
      rw [vget_eq _ _ ((xorDiff f g)[idx0]) hi0, List.getD_eq_getElem _ _ hi0]
    unfold errorRateEfficientSamplingF
    rw [if_neg (by simp [hl])]
    dsimp only
    rw [if_neg (by omega), if_neg (by omega), hsum, sub_self, hr.exact' isDouble_zero le_rfl (by norm_num)]
    simp only [hv, bind, Except.bind, effLoopF, if_true]
  | [_], hll => simp at hll; omega
  | [], hll => simp at hll; omega

/-- There is always a sorted list. -/
theorem sortedActsF_exists (rnd : ℚ → ℚ) (n : Nat) (diff : List (BDD m)) : ∃ acts, SortedActsF rnd n diff acts := by
  refine ⟨(activationsF rnd n diff).insertionSort (fun a b => a.2 ≥ b.2), List.perm_insertionSort _ _, ?_⟩
  have : Std.Total (fun a b : Nat × ℚ => a.2 ≥ b.2) := ⟨fun a b => le_total b.2 a.2⟩
  have : IsTrans (Nat × ℚ) (fun a b => a.2 ≥ b.2) := ⟨fun a b c h1 h2 => ge_trans h1 h2⟩
  exact List.pairwise_insertionSort _ _

/-- Two bits, each wrong at half of the inputs. -/
example : ∃ (f g : List (BDD Mgr.id)), f.length = g.length ∧ Fits 2 f ∧ Fits 2 g ∧ f.length * 2 ^ 2 ≤ 2 ^ 53 ∧
    ∃ i j, i < j ∧ j < f.length ∧ 0 < bitRate 2 f g i ∧ 0 < bitRate 2 f g j ∧
      ∀ k, bitRate 2 f g k ≤ 2 ^ 50 * bitRate 2 f g i ∧ bitRate 2 f g k ≤ 2 ^ 50 * bitRate 2 f g j := by
  have h0 : bitRate 2 [(BDD.var 0 : BDD .id), .var 1] [.zero, .zero] 0 = 1 / 2 := by decide +kernel
  have h1 : bitRate 2 [(BDD.var 0 : BDD .id), .var 1] [.zero, .zero] 1 = 1 / 2 := by decide +kernel
  refine ⟨[.var 0, .var 1], [.zero, .zero], rfl, by decide +kernel, by decide +kernel, by norm_num, 0, 1, by norm_num,
    by norm_num, by rw [h0]; norm_num, by rw [h1]; norm_num, fun k => ?_⟩
  rw [h0, h1]
  have := (bitRate_bounds 2 [(BDD.var 0 : BDD .id), .var 1] [.zero, .zero] k).2
  constructor <;> exact this.trans (by norm_num)

/-- Two bits of which only the first is ever wrong; one bit. -/
example : ∃ (f g : List (BDD Mgr.id)), f.length = g.length ∧ Fits 2 f ∧ Fits 2 g ∧ 2 ≤ f.length ∧
    (∀ i j, i < j → j < f.length → bitRate 2 f g i = 0 ∨ bitRate 2 f g j = 0) ∧ 0 < bitRate 2 f g 0 ∧
    (∃ acts, SortedActsF rnd (2 - 1) (xorDiff f g) acts) ∧
    Fits 2 [(BDD.var 1 : BDD Mgr.id)] ∧ errRate 2 (BDD.var 1 : BDD Mgr.id).eval (BDD.zero : BDD Mgr.id).eval = 1 / 2 := by
  refine ⟨[.var 0, .var 1], [.zero, .var 1], rfl, by decide +kernel, by decide +kernel, by norm_num, fun i j h1 h2 => ?_, ?_,
    sortedActsF_exists _ _ _, by decide +kernel, by decide +kernel⟩
  · obtain rfl : j = 1 := by simp at h2; omega
    exact .inr (by decide +kernel)
  · have h0 : bitRate 2 [(BDD.var 0 : BDD .id), .var 1] [.zero, .var 1] 0 = 1 / 2 := by decide +kernel
    rw [h0]
    norm_num

/-- A `double` of at least 1/2 is a multiple of `2 ^ -53`. -/
theorem IsDouble.multiple {q : ℚ} (hd : IsDouble q) (h : 1 / 2 ≤ q) : ∃ j : ℤ, q = j / 2 ^ 53 := by
  obtain ⟨k, e, hk, -, -, rfl⟩ := hd
  have hkq : (k : ℚ) ≤ 2 ^ 53 := by exact_mod_cast (abs_le.mp hk).2
  have h2e : (0 : ℚ) < 2 ^ e := by positivity
  have hlow : -54 ≤ e := by
    by_contra hc
    have h1 : (2 : ℚ) ^ e ≤ 2 ^ (-55 : ℤ) := zpow_le_zpow_right₀ (by norm_num) (by omega)
    have h2 : (k : ℚ) * 2 ^ e ≤ 2 ^ 53 * 2 ^ (-55 : ℤ) := mul_le_mul hkq h1 h2e.le (by positivity)
    norm_num at h2 h
    linarith
  by_cases he : e = -54
  · subst he
    refine ⟨2 ^ 52, ?_⟩
    norm_num at hkq h ⊢
    linarith
  · obtain ⟨j, hj⟩ : ∃ j : Nat, e = j - 53 := ⟨(e + 53).toNat, by omega⟩
    refine ⟨k * 2 ^ j, ?_⟩
    rw [hj, zpow_sub₀ (by norm_num), zpow_natCast]
    push_cast
    rw [mul_div_assoc]
    norm_num

theorem andDD_cntF (h : Nearest rnd) (n : Nat) (hn : n ≤ 900) (v k : Nat) (hk : k + 1 ≤ 100) :
    cntF rnd (2 ^ n) (andDD v k) false = 2 ^ n / 2 ^ (k + 1) := by
  have hz : rnd 0 = 0 := h.exact' isDouble_zero le_rfl (by norm_num)
  have hx : ∀ j, j ≤ 100 → rnd (2 ^ n / 2 ^ j) = 2 ^ n / 2 ^ j := fun j hj => by
    have hp : (0 : ℚ) < 2 ^ n / 2 ^ j := by positivity
    refine h.exact (isDouble_div_pow (isDouble_two_pow (by omega)) j (.inr ?_)) ?_
    · calc (1 : ℚ) / 2 ^ 1021 ≤ 1 / 2 ^ j := one_div_le_one_div_of_le (by positivity) (two_pow_le_big (by omega))
        _ ≤ 2 ^ n / 2 ^ j := div_le_div_of_nonneg_right (one_le_pow₀ (by norm_num)) (by positivity)
    · rw [abs_of_pos hp]
      exact (div_le_self (by positivity) (one_le_pow₀ (by norm_num))).trans (two_pow_le_big (by omega))
  have half : ∀ j, (2 : ℚ) ^ n / 2 ^ j / 2 = 2 ^ n / 2 ^ (j + 1) := fun j => by rw [pow_succ, div_div]
  induction k generalizing v with
  | zero =>
    rw [andDD, cntF_node]
    have e0 : cntF rnd (2 ^ n) .one (false ^^ true) = 0 := by simp [cntF]
    have e1 : cntF rnd (2 ^ n) .one false = 2 ^ n / 2 ^ 0 := by simp [cntF]
    rw [e0, e1, half, zero_div, hz, hx _ (by omega), add_zero, hx _ (by omega)]
  | succ k ih =>
    rw [andDD, cntF_node, ih (v + 1) (by omega)]
    have e0 : cntF rnd (2 ^ n) .one (false ^^ true) = 0 := by simp [cntF]
    rw [e0, half, zero_div, hz, hx _ (by omega), add_zero, hx _ (by omega)]

/-- Bits that are wrong for one input in two and for one in `2 ^ 60`: the second rate is lost in the sum, the code divides
by 0 and converts the quotient to `long`. With exact numbers it would be defined, by C38. -/
theorem C123_efficient_lost_rate_false (hr : Nearest rnd) : ∃ f g : List (BDD Mgr.id), f.length = g.length ∧ Fits 60 f ∧
    Fits 60 g ∧ bitRate 60 f g 0 = 1 / 2 ∧ bitRate 60 f g 1 = 1 / 2 ^ 60 ∧
    (∀ samples acts rs, samples < 2 ^ 31 → SortedActs (xorDiff f g) acts →
      ∃ q, errorRateEfficientSampling f g 60 (samples : Nat) acts rs = .ok q) ∧
    ∀ samples acts rs, SortedActsF rnd 59 (xorDiff f g) acts →
      errorRateEfficientSamplingF rnd f g 60 samples acts rs = .error .ub := by
  let A : BDD Mgr.id := ⟨⟨false, andDD 0 59⟩, andDD_wf _ _⟩
  have hA : Fits 60 [A] := fun b hb v hv => by
    rw [List.mem_singleton] at hb
    subst hb
    unfold BDD.supportIndices at hv
    rw [List.mem_dedup] at hv
    have := andDD_vars _ _ hv
    omega
  have hV : Fits 60 [(BDD.var 0 : BDD Mgr.id)] := by decide +kernel
  have hf : Fits 60 [BDD.var 0, A] := fun b hb => by
    rcases List.mem_cons.mp hb with rfl | hb
    · exact hV _ (by simp)
    · exact hA b hb
  have hg : Fits 60 [(BDD.zero : BDD Mgr.id), .zero] := by decide +kernel
  have hx : xorDiff [BDD.var 0, A] [.zero, .zero] = [BDD.var 0, A] := by
    simp only [xorDiff, List.zipWith_cons_cons, List.zipWith_nil_left, List.cons.injEq, and_true]
    exact ⟨BDD.ext_eval fun x => by simp, BDD.ext_eval fun x => by simp⟩
  have e0 : activationF rnd 59 (BDD.var 0 : BDD Mgr.id) = 1 / 2 := by
    change rnd (cntF rnd (2 ^ 59) (andDD 0 0) false / 2 ^ 59) = _
    rw [andDD_cntF hr 59 (by norm_num) 0 0 (by norm_num)]
    have : (2 : ℚ) ^ 59 / 2 ^ (0 + 1) / 2 ^ 59 = 1 / 2 ^ 1 := by norm_num
    rw [this, hr.pow 1 (by norm_num)]
    norm_num
  have e1 : activationF rnd 59 A = 1 / 2 ^ 60 := by
    unfold activationF countMintermF
    rw [andDD_cntF hr 59 (by norm_num) 0 59 (by norm_num)]
    have : (2 : ℚ) ^ 59 / 2 ^ (59 + 1) / 2 ^ 59 = 1 / 2 ^ 60 := by norm_num
    rw [this, hr.pow 60 (by norm_num)]
  have b0 : bitRate 60 [BDD.var 0, A] [.zero, .zero] 0 = 1 / 2 := by
    have := frac_bitRate [BDD.var 0, A] [.zero, .zero] 60 rfl hf hg 0 (by rw [hx]; simp)
    simp only [hx] at this
    rw [← this]
    change Edge.frac ⟨false, andDD 0 0⟩ = 1 / 2
    decide +kernel
  have b1 : bitRate 60 [BDD.var 0, A] [.zero, .zero] 1 = 1 / 2 ^ 60 := by
    have := frac_bitRate [BDD.var 0, A] [.zero, .zero] 60 rfl hf hg 1 (by rw [hx]; simp)
    simp only [hx] at this
    rw [← this]
    change Edge.frac ⟨false, andDD 0 59⟩ = 1 / 2 ^ 60
    decide +kernel
  have hlost : rnd (1 / 2 + 1 / 2 ^ 60) = 1 / 2 := by
    have hd : IsDouble (1 / 2) := by simpa using isDouble_pow 1 (by norm_num)
    have hb : |(1 : ℚ) / 2 + 1 / 2 ^ 60| ≤ 2 ^ 1023 :=
      le_big_of_nat (K := 1) (by norm_num) (by norm_num) (by norm_num)
    have h1 := hr.near _ _ hb hd
    have h2 := hr.le_rnd hb hd (by norm_num)
    obtain ⟨j, hj⟩ := (hr.isDouble _ hb).multiple h2
    rw [hj] at h1 h2 ⊢
    have h3 := (abs_le.mp h1).2
    norm_num at h2 h3 ⊢
    have h4 : (2 ^ 52 : ℚ) ≤ j := by
      norm_num
      linarith
    have h5 : (j : ℚ) < 2 ^ 52 + 1 := by
      norm_num
      linarith
    have h6 : (2 ^ 52 : ℤ) ≤ j := by exact_mod_cast h4
    have h7 : j < 2 ^ 52 + 1 := by exact_mod_cast h5
    have h8 : j = 2 ^ 52 := by omega
    rw [h8]
    norm_num
  refine ⟨[.var 0, A], [.zero, .zero], rfl, hf, hg, b0, b1, fun samples acts rs hs hacts => ?_, fun samples acts rs hacts => ?_⟩
  · obtain ⟨q, hq, -⟩ := C38_efficient_sampling_bounds_partial [.var 0, A] [.zero, .zero] 60 samples acts rs rfl hf hg
      (by norm_num) (by norm_num) hs hacts ⟨0, 1, by norm_num, by simp, by rw [b0]; norm_num, by rw [b1]; norm_num⟩
    exact ⟨q, hq⟩
  · obtain ⟨hp, hsort⟩ := hacts
    have ha : activationsF rnd 59 (xorDiff [.var 0, A] [.zero, .zero]) = [(0, 1 / 2), (1, 1 / 2 ^ 60)] := by
      rw [hx]
      change [(0, activationF rnd 59 (BDD.var 0 : BDD Mgr.id)), (1, activationF rnd 59 A)] = _
      rw [e0, e1]
    rw [ha] at hp
    have hacts : acts = [(0, 1 / 2), (1, 1 / 2 ^ 60)] := by
      refine List.Perm.eq_of_pairwise (le := fun a b : Nat × ℚ => a.2 ≥ b.2) ?_ hsort (by norm_num) hp
      intro a b hma hmb hab hba
      have hma' := hp.mem_iff.mp hma
      simp only [List.mem_cons, List.not_mem_nil, or_false] at hma' hmb
      rcases hma' with rfl | rfl <;> rcases hmb with rfl | rfl
      · rfl
      · norm_num at hba
      · norm_num at hab
      · rfl
    subst hacts
    unfold errorRateEfficientSamplingF
    rw [if_neg (by simp)]
    dsimp only
    rw [if_neg (by norm_num), if_neg (by norm_num), hx]
    have hsum : sumF rnd 0 ([BDD.var 0, A].map (activationF rnd (60 - 1))) = 1 / 2 := by
      simp only [List.map_cons, List.map_nil, sumF, zero_add, Nat.reduceSub, e0, e1]
      have h12 := hr.pow 1 (by norm_num)
      rw [pow_one] at h12
      rw [h12, hlost]
    have hz : rnd 0 = 0 := hr.exact' isDouble_zero le_rfl (by norm_num)
    rw [hsum, sub_self, hz]
    rfl

end Verif

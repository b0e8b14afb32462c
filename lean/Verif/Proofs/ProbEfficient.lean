import Verif.Proofs.ProbSampling
import Verif.Props.Sampling

/-!
# Lemmas on the mean of `error_rate_efficient_sampling`
-/

namespace Verif

open scoped BigOperators
open Finset

variable {m : Mgr}

/-- 1 if sample `r` of `d` hits none of the earlier functions. -/
def goodHit (N : Nat) (earlier : List (BDD m)) (d : BDD m) (r : Nat → Nat) : ℚ :=
  hitProp (fun l => !decide (∃ b ∈ earlier, b.eval (asgOf l) = true)) (randomSatisfyingInput d (countMinterms d) N r)

theorem goodLoop_sum (hm : m.Mono) (d : BDD m) (N : Nat) (earlier : List (BDD m)) (he : Fits N earlier)
    (rs : Nat → Nat → Nat) : ∀ k b, ∃ n : Nat,
    goodLoop d (countMinterms d) N earlier rs b k = .ok n ∧
      (n : ℚ) = ∑ j ∈ range k, goodHit N earlier d (rs (b + j))
  | 0, b => ⟨0, rfl, by simp⟩
  | k + 1, b => by
    obtain ⟨n, hn, hs⟩ := goodLoop_sum hm d N earlier he rs k (b + 1)
    obtain ⟨l, hl, hlen, _⟩ := randomSat_bits hm d N (rs b)
    have ha := anyOne_spec (inp := l) earlier (by rw [hlen]; exact he)
    refine ⟨_, by simp only [goodLoop, hl, ha, hn, bind, Except.bind]; rfl, ?_⟩
    rw [sum_range_succ', Nat.cast_add, hs, add_comm]
    congr 1
    · exact sum_congr rfl (fun j _ => by rw [show b + 1 + j = b + (j + 1) by omega])
    · rw [Nat.add_zero, goodHit, hl]
      by_cases h : ∃ b ∈ earlier, b.eval (asgOf l) = true <;> simp [h, hitProp, atResult]

/-- What the main loop adds to the rate. -/
def effSum (diff : List (BDD m)) (N : Nat) (samples : Nat) (denom : ℚ) (rs : Nat → Nat → Nat → Nat) :
    Nat → List (BDD m) → List (Nat × ℚ) → ℚ
  | _, _, [] => 0
  | i, earlier, (idx, act) :: rest =>
    act * ((∑ b ∈ range ⌊(samples : ℚ) * act / denom⌋₊, goodHit N earlier (diff.getD idx .zero) (rs i b)) /
      (⌊(samples : ℚ) * act / denom⌋₊ : ℚ)) +
    effSum diff N samples denom rs (i + 1) (earlier ++ [diff.getD idx .zero]) rest

theorem effLoop_sum (hm : m.Mono) (diff : List (BDD m)) (N : Nat) (hN : Fits N diff) (samples : Nat)
    (hs : samples < 2 ^ 31) (denom : ℚ) (hd : 0 < denom) (rs : Nat → Nat → Nat → Nat) :
    ∀ (acts : List (Nat × ℚ)) (i : Nat) (earlier : List (BDD m)) (rate : ℚ), Fits N earlier →
    (∀ p ∈ acts, p.1 < diff.length ∧ 0 ≤ p.2 ∧ p.2 ≤ denom) →
    effLoop diff N samples denom rs i earlier acts rate
      = .ok (rate + effSum diff N samples denom rs i earlier acts)
  | [], i, earlier, rate, _, _ => by simp [effLoop, effSum]
  | (idx, act) :: rest, i, earlier, rate, he, hp => by
    obtain ⟨hidx, ha0, ha1⟩ := hp (idx, act) (by simp)
    simp only at hidx ha0 ha1
    have hsq : (0 : ℚ) ≤ samples := by positivity
    have hq0 : 0 ≤ (samples : ℚ) * act / denom := div_nonneg (mul_nonneg hsq ha0) hd.le
    have hq1 : (samples : ℚ) * act / denom ≤ samples := by
      rw [div_le_iff₀ hd]
      exact mul_le_mul_of_nonneg_left ha1 hsq
    have hfl : (⌊(samples : ℚ) * act / denom⌋ : Int) = (⌊(samples : ℚ) * act / denom⌋₊ : Int) :=
      (Int.natCast_floor_eq_floor hq0).symm
    have hfl1 : ⌊(samples : ℚ) * act / denom⌋₊ ≤ samples := by
      have := le_trans (Nat.floor_le hq0) hq1
      exact_mod_cast this
    have hd' : vget diff idx = .ok (diff.getD idx .zero) := vget_eq diff idx .zero hidx
    have hfd : ∀ v ∈ (diff.getD idx .zero).supportIndices, v < N := by
      rw [List.getD_eq_getElem _ _ hidx]
      exact hN _ (List.getElem_mem hidx)
    have he' : Fits N (earlier ++ [diff.getD idx .zero]) := by
      intro b hb
      rcases List.mem_append.mp hb with h | h
      · exact he b h
      · rw [List.mem_singleton] at h; subst h
        exact hfd
    have ih := fun r => effLoop_sum hm diff N hN samples hs denom hd rs rest (i + 1)
      (earlier ++ [diff.getD idx .zero]) r he' (fun p hpm => hp p (by simp [hpm]))
    rw [effLoop, if_neg hd.ne']
    simp only [Int.cast_natCast]
    rw [if_pos hq0, hfl, if_neg (by omega)]
    simp only [hd', bind, Except.bind, ih, Int.toNat_natCast]
    split
    · rename_i hz
      have : ⌊(samples : ℚ) * act / denom⌋₊ = 0 := by exact_mod_cast hz
      rw [effSum, this]
      simp
    · obtain ⟨n, hn, hsum⟩ := goodLoop_sum hm (diff.getD idx .zero) N earlier he (rs i)
        ⌊(samples : ℚ) * act / denom⌋₊ 0
      simp only [hn, effSum, hsum, Nat.zero_add, Int.cast_natCast, add_assoc]

/-- The family of draws from a triply indexed one. -/
def seqs3 {l s k : Nat} (a : Fin l → Fin s → Fin k → Fin drawRange) : Nat → Nat → Nat → Nat :=
  fun i => if h : i < l then seqsOf (a ⟨i, h⟩) else fun _ _ => 0

theorem meanDraws3_eq (l s k : Nat) (F : (Nat → Nat → Nat → Nat) → ℚ) :
    meanDraws3 l s k F = 𝔼 a : Fin l → Fin s → Fin k → Fin drawRange, F (seqs3 a) := rfl

theorem meanDraws3_one {l s k : Nat} (i b : Nat) (hi : i < l) (hb : b < s) (F : (Nat → Nat) → ℚ) :
    meanDraws3 l s k (fun rs => F (rs i b)) = meanDraws k F := by
  rw [meanDraws3_eq, meanDraws, ← expect_coord s ⟨b, hb⟩ (fun w : Fin k → Fin drawRange => F (seqOf w)),
    ← expect_coord l ⟨i, hi⟩ (fun w : Fin s → Fin k → Fin drawRange => F (seqOf (w ⟨b, hb⟩)))]
  refine Finset.expect_congr rfl (fun a _ => ?_)
  simp [seqs3, seqsOf, hi, hb]

theorem meanDraws3_add (l s k : Nat) (F G : (Nat → Nat → Nat → Nat) → ℚ) :
    meanDraws3 l s k (fun rs => F rs + G rs) = meanDraws3 l s k F + meanDraws3 l s k G :=
  Finset.expect_add_distrib _ _ _

theorem meanDraws3_const (l s k : Nat) (c : ℚ) : meanDraws3 l s k (fun _ => c) = c :=
  Fintype.expect_const _

/-- Share of the inputs at which one of the functions is true. -/
def unionRate (N : Nat) (l : List (BDD m)) : ℚ := mean N (fun x => if ∃ b ∈ l, b.eval x = true then 1 else 0)

theorem unionRate_mono (N : Nat) (l l' : List (BDD m)) : unionRate N l ≤ unionRate N (l ++ l') := by
  apply mean_mono
  intro x
  by_cases h : ∃ b ∈ l, b.eval x = true
  · have : ∃ b ∈ l ++ l', b.eval x = true := by
      obtain ⟨b, hb, hx⟩ := h
      exact ⟨b, by simp [hb], hx⟩
    rw [if_pos h, if_pos this]
  · rw [if_neg h]; split <;> norm_num

theorem unionRate_snoc (N : Nat) (l : List (BDD m)) (d : BDD m) :
    unionRate N (l ++ [d]) = unionRate N l +
      mean N (fun x => if d.eval x then (if ∃ b ∈ l, b.eval x = true then (0 : ℚ) else 1) else 0) := by
  unfold unionRate
  rw [← mean_add]
  apply mean_congr
  intro x
  have : (∃ b ∈ l ++ [d], b.eval x = true) ↔ (∃ b ∈ l, b.eval x = true) ∨ d.eval x = true := by
    constructor
    · rintro ⟨b, hb, hx⟩
      rcases List.mem_append.mp hb with h | h
      · exact .inl ⟨b, h, hx⟩
      · rw [List.mem_singleton] at h; subst h; exact .inr hx
    · rintro (⟨b, hb, hx⟩ | hx)
      · exact ⟨b, by simp [hb], hx⟩
      · exact ⟨d, by simp, hx⟩
  simp only [this]
  by_cases h1 : ∃ b ∈ l, b.eval x = true <;> by_cases h2 : d.eval x = true <;> simp [h1, h2]

/-- Mean of one sample. -/
theorem goodHit_bounds (hm : m.Mono) (d : BDD m) (N : Nat) (hN : Fits N [d]) (hs : 0 < d.edge.frac)
    (earlier : List (BDD m)) :
    (1 - (N : ℚ) / drawRange) * (unionRate N (earlier ++ [d]) - unionRate N earlier) ≤
      d.edge.frac * meanDraws N (fun r => goodHit N earlier d r) ∧
    d.edge.frac * meanDraws N (fun r => goodHit N earlier d r) ≤
      unionRate N (earlier ++ [d]) - unionRate N earlier + (N : ℚ) / drawRange * d.edge.frac := by
  have hsat := (frac_pos_iff d.wf).mp hs
  have h := randomSat_event hm d N hsat hN (fun x => !decide (∃ b ∈ earlier, b.eval x = true))
  have hfr : d.edge.frac = mean N (fun x => ind (d.eval x)) := BDD.frac_eq_mean N d (hN d (by simp))
  have hu : d.edge.frac * (count N (fun x => d.eval x && !decide (∃ b ∈ earlier, b.eval x = true)) / count N d.eval)
      = unionRate N (earlier ++ [d]) - unionRate N earlier := by
    rw [unionRate_snoc, add_sub_cancel_left, count_eq_mean, count_eq_mean, hfr]
    rw [hfr] at hs
    have : mean N (fun x => if d.eval x then (if ∃ b ∈ earlier, b.eval x = true then (0 : ℚ) else 1) else 0)
        = mean N (fun x => ind (d.eval x && !decide (∃ b ∈ earlier, b.eval x = true))) :=
      mean_congr N (fun x => by
        by_cases h1 : ∃ b ∈ earlier, b.eval x = true <;> by_cases h2 : d.eval x = true <;> simp [h1, h2])
    rw [this]
    field_simp
  set u : ℚ := count N (fun x => d.eval x && !decide (∃ b ∈ earlier, b.eval x = true)) / count N d.eval
  have hu0 : 0 ≤ u := by positivity
  have hN0 : (0 : ℚ) ≤ (N : ℚ) / drawRange := by positivity
  rw [← hu]
  constructor
  · have := mul_le_mul_of_nonneg_left h.1 hs.le
    calc (1 - (N : ℚ) / drawRange) * (d.edge.frac * u) = d.edge.frac * ((1 - (N : ℚ) / drawRange) * u) := by ring
      _ ≤ _ := this
  · have := mul_le_mul_of_nonneg_left h.2 hs.le
    refine le_trans this ?_
    have h3 := mul_nonneg hN0 (mul_nonneg hs.le hu0)
    nlinarith

theorem meanDraws3_mono (l s k : Nat) {F G : (Nat → Nat → Nat → Nat) → ℚ} (h : ∀ rs, F rs ≤ G rs) :
    meanDraws3 l s k F ≤ meanDraws3 l s k G :=
  Finset.expect_le_expect (fun _ _ => h _)

theorem meanDraws3_mul (l s k : Nat) (c : ℚ) (F : (Nat → Nat → Nat → Nat) → ℚ) :
    meanDraws3 l s k (fun rs => c * F rs) = c * meanDraws3 l s k F := by
  rw [meanDraws3_eq, ← Finset.mul_expect]; rfl

theorem meanDraws3_sum {ι : Type} (l s k : Nat) (t : Finset ι) (F : ι → (Nat → Nat → Nat → Nat) → ℚ) :
    meanDraws3 l s k (fun rs => ∑ j ∈ t, F j rs) = ∑ j ∈ t, meanDraws3 l s k (F j) := by
  rw [meanDraws3_eq, Finset.expect_sum_comm]; rfl

/-- Total rate of the bits that get no sample. -/
def skippedRate (samples : Nat) (denom : ℚ) (acts : List (Nat × ℚ)) : ℚ :=
  (acts.map (fun p => if (samples : ℚ) * p.2 < denom then p.2 else 0)).sum

theorem skippedRate_zero (samples : Nat) (denom : ℚ) : ∀ (acts : List (Nat × ℚ)), (∀ p ∈ acts, 0 ≤ p.2) →
    (∀ p ∈ acts, 0 < p.2 → denom ≤ samples * p.2) → skippedRate samples denom acts = 0
  | [], _, _ => rfl
  | p :: rest, h0, h => by
    have ih := skippedRate_zero samples denom rest (fun q hq => h0 q (by simp [hq])) (fun q hq => h q (by simp [hq]))
    simp only [skippedRate, List.map_cons, List.sum_cons] at ih ⊢
    rw [ih, add_zero]
    split
    · rename_i hlt
      rcases lt_or_eq_of_le (h0 p (by simp)) with h1 | h1
      · have := h p (by simp) h1
        linarith
      · exact h1.symm
    · rfl

theorem skippedRate_bounds (samples : Nat) (hs : 1 ≤ samples) (denom : ℚ) (hd : 0 ≤ denom) :
    ∀ (acts : List (Nat × ℚ)), (∀ p ∈ acts, 0 ≤ p.2) →
    0 ≤ skippedRate samples denom acts ∧ skippedRate samples denom acts ≤ acts.length * denom / samples
  | [], _ => by simp [skippedRate]
  | p :: rest, h0 => by
    have ih := skippedRate_bounds samples hs denom hd rest (fun q hq => h0 q (by simp [hq]))
    have hpos : (0 : ℚ) < samples := by exact_mod_cast hs
    have hp := h0 p (by simp)
    simp only [skippedRate, List.map_cons, List.sum_cons, List.length_cons] at ih ⊢
    have e : ((rest.length + 1 : Nat) : ℚ) * denom / samples = denom / samples + rest.length * denom / samples := by
      push_cast; ring
    rw [e]
    have h1 : (if (samples : ℚ) * p.2 < denom then p.2 else 0) ≤ denom / samples := by
      split
      · rename_i h
        rw [le_div_iff₀ hpos]; linarith
      · positivity
    have h2 : 0 ≤ (if (samples : ℚ) * p.2 < denom then p.2 else 0) := by split <;> simp [hp]
    constructor <;> linarith [ih.1, ih.2]

/-- Mean of what the main loop adds: short by what is skipped, otherwise as good as the draws. -/
theorem effSum_mean (hm : m.Mono) (diff : List (BDD m)) (N : Nat) (hN : Fits N diff) (samples l : Nat)
    (denom : ℚ) (hd : 0 < denom) :
    ∀ (acts : List (Nat × ℚ)) (i : Nat) (earlier : List (BDD m)), i + acts.length ≤ l →
    (∀ p ∈ acts, p.1 < diff.length ∧ p.2 = (diff.getD p.1 .zero).edge.frac ∧ p.2 ≤ denom) →
    meanDraws3 l samples N (fun rs => effSum diff N samples denom rs i earlier acts) ≤
      unionRate N (earlier ++ acts.map (fun p => diff.getD p.1 .zero)) - unionRate N earlier +
      (N : ℚ) / drawRange * (acts.map Prod.snd).sum ∧
    (1 - (N : ℚ) / drawRange) *
        (unionRate N (earlier ++ acts.map (fun p => diff.getD p.1 .zero)) - unionRate N earlier) -
        skippedRate samples denom acts ≤
      meanDraws3 l samples N (fun rs => effSum diff N samples denom rs i earlier acts)
  | [], i, earlier, _, _ => by simp [effSum, meanDraws3_const, skippedRate]
  | (idx, act) :: rest, i, earlier, hl, hp => by
    obtain ⟨hidx, ha, ha1⟩ := hp (idx, act) (by simp)
    simp only at hidx ha ha1
    set d := diff.getD idx .zero with hdd
    have hfd : Fits N [d] := by
      intro b hb
      rw [List.mem_singleton] at hb
      subst hb
      rw [hdd, List.getD_eq_getElem _ _ hidx]
      exact hN _ (List.getElem_mem hidx)
    have hb := frac_bounds (m := m) (a := d.edge) d.wf
    have ha0 : 0 ≤ act := by rw [ha]; exact hb.1
    have hsq : (0 : ℚ) ≤ samples := by positivity
    have hq0 : 0 ≤ (samples : ℚ) * act / denom := div_nonneg (mul_nonneg hsq ha0) hd.le
    have hq1 : (samples : ℚ) * act / denom ≤ samples := by
      rw [div_le_iff₀ hd]
      exact mul_le_mul_of_nonneg_left ha1 hsq
    have hfl1 : ⌊(samples : ℚ) * act / denom⌋₊ ≤ samples := by
      have := le_trans (Nat.floor_le hq0) hq1
      exact_mod_cast this
    obtain ⟨ih1, ih2⟩ := effSum_mean hm diff N hN samples l denom hd rest (i + 1) (earlier ++ [d])
      (by simp at hl; omega) (fun p hpm => hp p (by simp [hpm]))
    have hN0 : (0 : ℚ) ≤ (N : ℚ) / drawRange := by positivity
    have hmono := unionRate_mono N earlier [d]
    have happ : earlier ++ ((idx, act) :: rest).map (fun p => diff.getD p.1 .zero)
        = (earlier ++ [d]) ++ rest.map (fun p => diff.getD p.1 .zero) := by simp [hdd]
    rw [happ]
    set n := ⌊(samples : ℚ) * act / denom⌋₊ with hn
    have hterm : meanDraws3 l samples N (fun rs => effSum diff N samples denom rs i earlier ((idx, act) :: rest))
        = act * (n * meanDraws N (fun r => goodHit N earlier d r) / n) +
          meanDraws3 l samples N (fun rs => effSum diff N samples denom rs (i + 1) (earlier ++ [d]) rest) := by
      simp only [effSum]
      rw [meanDraws3_add, meanDraws3_mul]
      congr 2
      have e1 : meanDraws3 l samples N (fun rs => (∑ b ∈ range n, goodHit N earlier d (rs i b)) / n)
          = (1 / n) * meanDraws3 l samples N (fun rs => ∑ b ∈ range n, goodHit N earlier d (rs i b)) := by
        rw [← meanDraws3_mul]
        congr 1
        funext rs
        ring
      rw [e1, meanDraws3_sum, sum_congr rfl (fun b hb => meanDraws3_one i b (by simp at hl; omega)
        (by have := mem_range.mp hb; omega) (fun r => goodHit N earlier d r)), sum_const, card_range,
        nsmul_eq_mul]
      ring
    rw [hterm, List.map_cons, List.sum_cons]
    have hposbound : ∀ hpos : 0 < act, n ≠ 0 → act * (n * meanDraws N (fun r => goodHit N earlier d r) / n)
        = d.edge.frac * meanDraws N (fun r => goodHit N earlier d r) := by
      intro _ hne
      rw [mul_div_cancel_left₀ _ (by exact_mod_cast hne), ha]
    constructor
    · have key : act * (n * meanDraws N (fun r => goodHit N earlier d r) / n) ≤
          unionRate N (earlier ++ [d]) - unionRate N earlier + (N : ℚ) / drawRange * act := by
        rcases Nat.eq_zero_or_pos n with h0 | h0
        · rw [h0]
          simp only [Nat.cast_zero, div_zero, mul_zero]
          have := mul_nonneg hN0 ha0
          linarith
        · have hact : 0 < act := by
            rcases lt_or_eq_of_le ha0 with h | h
            · exact h
            · rw [hn, ← h] at h0; simp at h0
          rw [hposbound hact h0.ne', ha]
          exact (goodHit_bounds hm d N hfd (ha ▸ hact) earlier).2
      linarith
    · have key : (1 - (N : ℚ) / drawRange) * (unionRate N (earlier ++ [d]) - unionRate N earlier) -
          (if (samples : ℚ) * act < denom then act else 0) ≤
          act * (n * meanDraws N (fun r => goodHit N earlier d r) / n) := by
        by_cases hsk : (samples : ℚ) * act < denom
        · have hn0 : n = 0 := by
            rw [hn, Nat.floor_eq_zero, div_lt_one hd]
            exact hsk
          rw [if_pos hsk, hn0]
          simp only [Nat.cast_zero, div_zero, mul_zero]
          have hle : unionRate N (earlier ++ [d]) - unionRate N earlier ≤ act := by
            rw [unionRate_snoc, add_sub_cancel_left, ha, BDD.frac_eq_mean N d (hfd d (by simp))]
            apply mean_mono
            intro x
            by_cases h1 : ∃ b ∈ earlier, b.eval x = true <;> by_cases h2 : d.eval x = true <;> simp [h1, h2]
          have hge : 0 ≤ unionRate N (earlier ++ [d]) - unionRate N earlier := by linarith
          have := mul_nonneg hN0 hge
          linarith
        · have hsk' := not_lt.mp hsk
          have hact : 0 < act := by
            rcases lt_or_eq_of_le ha0 with h | h
            · exact h
            · rw [← h, mul_zero] at hsk'; linarith
          have h0 : n ≠ 0 := by
            have : 1 ≤ n := by
              rw [hn, Nat.le_floor_iff hq0, Nat.cast_one, le_div_iff₀ hd, one_mul]
              exact hsk'
            omega
          rw [hposbound hact h0, if_neg hsk, sub_zero]
          exact (goodHit_bounds hm d N hfd (ha ▸ hact) earlier).1
      have : (1 - (N : ℚ) / drawRange) * (unionRate N (earlier ++ [d] ++ rest.map (fun p => diff.getD p.1 .zero)) - unionRate N earlier)
        = (1 - (N : ℚ) / drawRange) * (unionRate N (earlier ++ [d]) - unionRate N earlier) +
          (1 - (N : ℚ) / drawRange) * (unionRate N (earlier ++ [d] ++ rest.map (fun p => diff.getD p.1 .zero)) - unionRate N (earlier ++ [d])) := by
        ring
      have hskip : skippedRate samples denom ((idx, act) :: rest)
          = (if (samples : ℚ) * act < denom then act else 0) + skippedRate samples denom rest := by
        simp [skippedRate]
      rw [this, hskip]
      linarith

theorem goodHit_range (N : Nat) (earlier : List (BDD m)) (d : BDD m) (r : Nat → Nat) :
    0 ≤ goodHit N earlier d r ∧ goodHit N earlier d r ≤ 1 := by
  unfold goodHit hitProp
  cases randomSatisfyingInput d (countMinterms d) N r with
  | error e => simp [atResult]
  | ok l => simp only [atResult]; split <;> norm_num

theorem effSum_range (diff : List (BDD m)) (N samples : Nat) (denom : ℚ) (rs : Nat → Nat → Nat → Nat) :
    ∀ (acts : List (Nat × ℚ)) (i : Nat) (earlier : List (BDD m)), (∀ p ∈ acts, 0 ≤ p.2) →
    0 ≤ effSum diff N samples denom rs i earlier acts ∧
    effSum diff N samples denom rs i earlier acts ≤ (acts.map Prod.snd).sum
  | [], i, earlier, _ => by simp [effSum]
  | (idx, act) :: rest, i, earlier, hp => by
    have ih := effSum_range diff N samples denom rs rest (i + 1) (earlier ++ [diff.getD idx .zero])
      (fun p h => hp p (by simp [h]))
    have ha : 0 ≤ act := hp (idx, act) (by simp)
    rw [effSum, List.map_cons, List.sum_cons]
    set n := ⌊(samples : ℚ) * act / denom⌋₊
    have h1 : 0 ≤ (∑ b ∈ range n, goodHit N earlier (diff.getD idx .zero) (rs i b)) / (n : ℚ) :=
      div_nonneg (sum_nonneg (fun b _ => (goodHit_range _ _ _ _).1)) (by positivity)
    have h2 : (∑ b ∈ range n, goodHit N earlier (diff.getD idx .zero) (rs i b)) / (n : ℚ) ≤ 1 := by
      apply div_le_one_of_le₀ _ (by positivity)
      refine le_trans (sum_le_sum (fun b _ => (goodHit_range N earlier (diff.getD idx .zero) (rs i b)).2)) ?_
      simp
    have h3 := mul_nonneg ha h1
    have h4 := mul_le_of_le_one_right ha h2
    constructor <;> linarith [ih.1, ih.2]

/-- Mean of the square of a sum of independent centred terms, one per coordinate. -/
theorem expect_sq_indep {Ω : Type} [Fintype Ω] [Nonempty Ω] : ∀ (k : Nat) (Y : Nat → Ω → ℚ),
    (∀ j, 𝔼 r, Y j r = 0) →
    𝔼 a : Fin k → Ω, (∑ j : Fin k, Y j (a j)) ^ 2 = ∑ j ∈ range k, 𝔼 r, Y j r ^ 2
  | 0, Y, _ => by simp
  | k + 1, Y, hY => by
    rw [expect_cons]
    have hS : 𝔼 a : Fin k → Ω, ∑ j : Fin k, Y (j + 1) (a j) = 0 := by
      rw [Finset.expect_sum_comm]
      exact Finset.sum_eq_zero (fun j _ => by rw [expect_coord k j (Y (j + 1)), hY])
    have h : ∀ r : Ω, 𝔼 a : Fin k → Ω, (∑ j : Fin (k + 1), Y j ((Fin.cons r a : Fin (k + 1) → Ω) j)) ^ 2
        = Y 0 r ^ 2 + ∑ j ∈ range k, 𝔼 r, Y (j + 1) r ^ 2 := by
      intro r
      have e : ∀ a : Fin k → Ω, (∑ j : Fin (k + 1), Y j ((Fin.cons r a : Fin (k + 1) → Ω) j)) ^ 2
          = Y 0 r ^ 2 + 2 * Y 0 r * (∑ j : Fin k, Y (j + 1) (a j)) + (∑ j : Fin k, Y (j + 1) (a j)) ^ 2 := by
        intro a
        rw [Fin.sum_univ_succ]
        simp only [Fin.cons_zero, Fin.cons_succ, Fin.val_succ, Fin.val_zero]
        ring
      rw [Finset.expect_congr rfl (fun a _ => e a), Finset.expect_add_distrib, Finset.expect_add_distrib,
        Fintype.expect_const, ← Finset.mul_expect, hS,
        expect_sq_indep k (fun j => Y (j + 1)) (fun j => hY (j + 1))]
      ring
    rw [Finset.expect_congr rfl (fun r _ => h r), Finset.expect_add_distrib, Fintype.expect_const,
      sum_range_succ', add_comm]

/-- Spread of what one row of draws contributes. -/
theorem row_variance (s k n : Nat) (hn : n ≤ s) (act : ℚ) (G : (Nat → Nat) → ℚ)
    (hG : ∀ r, G r = 0 ∨ G r = 1) :
    meanDraws2 s k (fun w => (act * ((∑ b ∈ range n, G (w b)) / n) - act * (n * meanDraws k G / n)) ^ 2)
      ≤ act ^ 2 / (4 * n) := by
  rcases Nat.eq_zero_or_pos n with h0 | h0
  · subst h0
    unfold meanDraws2
    simp
  have hpos : (0 : ℚ) < n := by exact_mod_cast h0
  set p := meanDraws k G with hp
  set Y : Nat → (Fin k → Fin drawRange) → ℚ := fun b r => if b < n then G (seqOf r) - p else 0 with hY
  have hc : ∀ b, 𝔼 r, Y b r = 0 := by
    intro b
    by_cases hb : b < n
    · simp only [hY, hb, if_true]
      rw [Finset.expect_sub_distrib, Fintype.expect_const]
      exact sub_self _
    · simp [hY, hb]
  have e : ∀ a : Fin s → Fin k → Fin drawRange,
      (act * ((∑ b ∈ range n, G (seqsOf a b)) / n) - act * (n * p / n)) ^ 2
        = (act ^ 2 / n ^ 2) * (∑ b : Fin s, Y b (a b)) ^ 2 := by
    intro a
    have h1 : ∑ b : Fin s, Y b (a b) = (∑ b ∈ range n, G (seqsOf a b)) - n * p := by
      have h2 : ∀ b : Fin s, Y b (a b) = (fun b : Nat => if b < n then G (seqsOf a b) - p else 0) b.val := by
        intro b
        simp only [hY, seqsOf_apply]
      rw [Finset.sum_congr rfl (fun b _ => h2 b), Fin.sum_univ_eq_sum_range
        (fun b : Nat => if b < n then G (seqsOf a b) - p else 0), ← Finset.sum_filter]
      have h3 : (range s).filter (· < n) = range n := by
        ext b
        simp only [mem_filter, mem_range]
        omega
      rw [h3, Finset.sum_sub_distrib, Finset.sum_const, card_range, nsmul_eq_mul]
    rw [h1]
    field_simp
  unfold meanDraws2
  rw [Finset.expect_congr rfl (fun a _ => e a), ← Finset.mul_expect, expect_sq_indep s Y hc]
  have hv : ∀ b ∈ range s, 𝔼 r, Y b r ^ 2 = if b < n then p * (1 - p) else 0 := by
    intro b _
    by_cases hb : b < n
    · simp only [hY, hb, if_true]
      have e2 : ∀ r : Fin k → Fin drawRange, (G (seqOf r) - p) ^ 2 = (1 - 2 * p) * G (seqOf r) + p ^ 2 := by
        intro r
        rcases hG (seqOf r) with h | h <;> rw [h] <;> ring
      rw [Finset.expect_congr rfl (fun r _ => e2 r), Finset.expect_add_distrib, ← Finset.mul_expect,
        Fintype.expect_const]
      change (1 - 2 * p) * p + p ^ 2 = _
      ring
    · simp [hY, hb]
  rw [Finset.sum_congr rfl hv, ← Finset.sum_filter]
  have h3 : (range s).filter (· < n) = range n := by
    ext b
    simp only [mem_filter, mem_range]
    omega
  rw [h3, Finset.sum_const, card_range, nsmul_eq_mul]
  have h4 : p * (1 - p) ≤ 1 / 4 := by nlinarith [sq_nonneg (2 * p - 1)]
  have h5 : act ^ 2 / (n : ℚ) ^ 2 * (n * (p * (1 - p))) = act ^ 2 / n * (p * (1 - p)) := by
    field_simp
  rw [h5, show act ^ 2 / (4 * (n : ℚ)) = act ^ 2 / n * (1 / 4) by field_simp]
  exact mul_le_mul_of_nonneg_left h4 (by positivity)

theorem goodHit_cases (N : Nat) (earlier : List (BDD m)) (d : BDD m) (r : Nat → Nat) :
    goodHit N earlier d r = 0 ∨ goodHit N earlier d r = 1 := by
  unfold goodHit hitProp
  cases randomSatisfyingInput d (countMinterms d) N r with
  | error e => simp [atResult]
  | ok l => simp only [atResult]; split <;> simp

/-- The rows of draws contribute independently, and the spread of each is bounded. -/
theorem effSum_rows (diff : List (BDD m)) (N samples l : Nat) (hs : 1 ≤ samples) (denom : ℚ) (hd : 0 < denom) :
    ∀ (acts : List (Nat × ℚ)) (i : Nat) (earlier : List (BDD m)), i + acts.length ≤ l →
    (∀ p ∈ acts, 0 ≤ p.2 ∧ p.2 ≤ denom) →
    ∃ T : Nat → (Nat → Nat → Nat) → ℚ, (∀ p < i, ∀ w, T p w = 0) ∧
      (∀ rs, effSum diff N samples denom rs i earlier acts = ∑ p ∈ range l, T p (rs p)) ∧
      ∑ p ∈ range l, meanDraws2 samples N (fun w => (T p w - meanDraws2 samples N (T p)) ^ 2) ≤
        (acts.map Prod.snd).sum * denom / (2 * samples)
  | [], i, earlier, _, _ => ⟨fun _ _ => 0, fun _ _ _ => rfl, fun rs => by simp [effSum], by
      simp [meanDraws2]⟩
  | (idx, act) :: rest, i, earlier, hl, hp => by
    obtain ⟨ha0, ha1⟩ := hp (idx, act) (by simp)
    simp only at ha0 ha1
    obtain ⟨T, hT0, hT, hvar⟩ := effSum_rows diff N samples l hs denom hd rest (i + 1)
      (earlier ++ [diff.getD idx .zero]) (by simp at hl; omega) (fun p hpm => hp p (by simp [hpm]))
    have hpos : (0 : ℚ) < samples := by exact_mod_cast hs
    set n := ⌊(samples : ℚ) * act / denom⌋₊ with hn
    have hq0 : 0 ≤ (samples : ℚ) * act / denom := div_nonneg (mul_nonneg hpos.le ha0) hd.le
    have hq1 : (samples : ℚ) * act / denom ≤ samples := by
      rw [div_le_iff₀ hd]
      exact mul_le_mul_of_nonneg_left ha1 hpos.le
    have hfl1 : n ≤ samples := by
      have := le_trans (Nat.floor_le hq0) hq1
      exact_mod_cast this
    set H : (Nat → Nat → Nat) → ℚ := fun w =>
      act * ((∑ b ∈ range n, goodHit N earlier (diff.getD idx .zero) (w b)) / n) with hH
    have hil : i ∈ range l := by simp at hl ⊢; omega
    have hsplit : ∀ F : Nat → (Nat → Nat → Nat) → ℚ, ∀ A : Nat → ((Nat → Nat → Nat) → ℚ) → ℚ,
        (∀ p, A p (fun _ => 0) = 0) → (∀ w, F i w = 0) →
        ∑ p ∈ range l, A p (Function.update F i H p) = A i H + ∑ p ∈ range l, A p (F p) := by
      intro F A hA hF
      rw [← Finset.add_sum_erase _ _ hil, ← Finset.add_sum_erase _ (fun p => A p (F p)) hil,
        Function.update_self, show F i = (fun _ => 0) from funext hF, hA, zero_add]
      congr 1
      refine Finset.sum_congr rfl (fun p hp => ?_)
      rw [Function.update_of_ne (Finset.ne_of_mem_erase hp)]
    refine ⟨Function.update T i H, fun p hpi w => ?_, fun rs => ?_, ?_⟩
    · rw [Function.update_of_ne (by omega)]
      exact hT0 p (by omega) w
    · rw [hsplit T (fun p g => g (rs p)) (fun _ => rfl) (fun w => hT0 i (by omega) w), effSum, hT]
    · rw [hsplit T (fun p g => meanDraws2 samples N (fun w => (g w - meanDraws2 samples N g) ^ 2))
        (fun _ => by simp [meanDraws2]) (fun w => hT0 i (by omega) w), List.map_cons, List.sum_cons]
      have hmean : meanDraws2 samples N H = act * (n * meanDraws N (fun r => goodHit N earlier (diff.getD idx .zero) r) / n) := by
        unfold meanDraws2
        rw [hH]
        simp only
        rw [← Finset.mul_expect, ← Finset.expect_div, Finset.expect_sum_comm]
        congr 2
        have : ∀ b ∈ range n, (𝔼 a : Fin samples → Fin N → Fin drawRange,
            goodHit N earlier (diff.getD idx .zero) (seqsOf a b)) =
            meanDraws N (fun r => goodHit N earlier (diff.getD idx .zero) r) := by
          intro b hb
          have hb' : b < samples := by have := mem_range.mp hb; omega
          have h := expect_coord samples ⟨b, hb'⟩ (fun w : Fin N → Fin drawRange =>
            goodHit N earlier (diff.getD idx .zero) (seqOf w))
          rw [meanDraws, ← h]
          exact Finset.expect_congr rfl (fun a _ => by rw [← seqsOf_apply])
        rw [Finset.sum_congr rfl this, Finset.sum_const, card_range, nsmul_eq_mul]
      have hrow := row_variance samples N n hfl1 act (fun r => goodHit N earlier (diff.getD idx .zero) r)
        (fun r => goodHit_cases _ _ _ _)
      rw [← hmean] at hrow
      have hbound : act ^ 2 / (4 * (n : ℚ)) ≤ act * denom / (2 * samples) := by
        rcases Nat.eq_zero_or_pos n with h0 | h0
        · rw [h0]
          simp only [Nat.cast_zero, mul_zero, div_zero]
          positivity
        · have hn0 : (0 : ℚ) < n := by exact_mod_cast h0
          have h2 : (samples : ℚ) * act / denom < n + 1 := Nat.lt_floor_add_one _
          have h3 : (1 : ℚ) ≤ n := by exact_mod_cast h0
          have h4 : (samples : ℚ) * act / denom ≤ 2 * n := by linarith
          rw [div_le_iff₀ hd] at h4
          rw [div_le_div_iff₀ (by positivity) (by positivity)]
          have := mul_le_mul_of_nonneg_left h4 ha0
          nlinarith
      have e : (act + (rest.map Prod.snd).sum) * denom / (2 * (samples : ℚ))
          = act * denom / (2 * samples) + (rest.map Prod.snd).sum * denom / (2 * samples) := by ring
      rw [e]
      linarith

/-- Spread of what the main loop adds. -/
theorem effSum_variance (diff : List (BDD m)) (N samples l : Nat) (hs : 1 ≤ samples) (denom : ℚ) (hd : 0 < denom)
    (acts : List (Nat × ℚ)) (i : Nat) (earlier : List (BDD m)) (hl : i + acts.length ≤ l)
    (hp : ∀ p ∈ acts, 0 ≤ p.2 ∧ p.2 ≤ denom) :
    meanDraws3 l samples N (fun rs => (effSum diff N samples denom rs i earlier acts -
      meanDraws3 l samples N (fun rs => effSum diff N samples denom rs i earlier acts)) ^ 2) ≤
      (acts.map Prod.snd).sum * denom / (2 * samples) := by
  obtain ⟨T, _, hT, hvar⟩ := effSum_rows diff N samples l hs denom hd acts i earlier hl hp
  simp only [hT]
  refine le_trans (le_of_eq ?_) hvar
  have hrow : ∀ (a : Fin l → Fin samples → Fin N → Fin drawRange) (p : Fin l), seqs3 a p.val = seqsOf (a p) := by
    intro a p
    simp [seqs3]
  have hmean : meanDraws3 l samples N (fun rs => ∑ p ∈ range l, T p (rs p))
      = ∑ p ∈ range l, meanDraws2 samples N (T p) := by
    rw [meanDraws3_sum, ← Fin.sum_univ_eq_sum_range (fun p => meanDraws3 l samples N (fun rs => T p (rs p))),
      ← Fin.sum_univ_eq_sum_range (fun p => meanDraws2 samples N (T p))]
    refine Finset.sum_congr rfl (fun p _ => ?_)
    rw [meanDraws3_eq]
    simp only [hrow]
    exact expect_coord l p (fun w : Fin samples → Fin N → Fin drawRange => T p (seqsOf w))
  rw [hmean, meanDraws3_eq]
  have e : ∀ a : Fin l → Fin samples → Fin N → Fin drawRange,
      (∑ p ∈ range l, T p (seqs3 a p) - ∑ p ∈ range l, meanDraws2 samples N (T p)) ^ 2
        = (∑ p : Fin l, (fun (p : Nat) (w : Fin samples → Fin N → Fin drawRange) =>
            T p (seqsOf w) - meanDraws2 samples N (T p)) p (a p)) ^ 2 := by
    intro a
    rw [← Finset.sum_sub_distrib, ← Fin.sum_univ_eq_sum_range (fun p => T p (seqs3 a p) - meanDraws2 samples N (T p))]
    simp only [hrow]
  rw [Finset.expect_congr rfl (fun a _ => e a), expect_sq_indep l (fun (p : Nat) (w : Fin samples → Fin N → Fin drawRange) =>
    T p (seqsOf w) - meanDraws2 samples N (T p)) (fun p => by
      rw [Finset.expect_sub_distrib, Fintype.expect_const]
      exact sub_self _)]
  rfl

theorem unionRate_perm (N : Nat) {l l' : List (BDD m)} (h : ∀ b, b ∈ l ↔ b ∈ l') :
    unionRate N l = unionRate N l' := by
  apply mean_congr
  intro x
  simp only [h]

theorem unionRate_xorDiff (f g : List (BDD m)) (hl : f.length = g.length) (N : Nat) :
    unionRate N (xorDiff f g) = mean N (fun x => if bitsAt f x = bitsAt g x then 0 else 1) := by
  apply mean_congr
  intro x
  have := xorDiff_spec f g hl x
  by_cases h : bitsAt f x = bitsAt g x
  · rw [if_pos h, if_neg (fun hc => (this.mp hc) h)]
  · rw [if_neg h, if_pos (this.mpr h)]

/-- The estimate before the minimum, and the bounds on its mean. -/
theorem efficient_mean (hm : m.Mono) (f g : List (BDD m)) (N samples : Nat)
    (acts : List (Nat × ℚ)) (hl : f.length = g.length)
    (hf : Fits N f) (hg : Fits N g) (h0 : 1 ≤ N) (h1 : N ≤ 1024) (hs : samples < 2 ^ 31)
    (hacts : SortedActs (xorDiff f g) acts)
    (htwo : ∃ i j, i < j ∧ j < f.length ∧ 0 < bitRate N f g i ∧ 0 < bitRate N f g j) :
    ∃ R : (Nat → Nat → Nat → Nat) → ℚ,
      (∀ rs, errorRateEfficientSampling f g N samples acts rs = .ok (min 1 (R rs))) ∧
      (∀ rs, 0 ≤ R rs ∧ R rs ≤ ((List.range f.length).map (bitRate N f g)).sum) ∧
      meanDraws3 f.length samples N R ≤ mean N (fun x => if bitsAt f x = bitsAt g x then 0 else 1) +
        (N : ℚ) / drawRange * ((List.range f.length).map (bitRate N f g)).sum ∧
      ((∀ i, 0 < bitRate N f g i →
          ((List.range f.length).map (bitRate N f g)).sum ≤ samples * bitRate N f g i) →
        (1 - (N : ℚ) / drawRange) * mean N (fun x => if bitsAt f x = bitsAt g x then 0 else 1) ≤
          meanDraws3 f.length samples N R) ∧
      (1 ≤ samples →
        (1 - (N : ℚ) / drawRange) * mean N (fun x => if bitsAt f x = bitsAt g x then 0 else 1) -
          f.length * ((List.range f.length).map (bitRate N f g)).sum / samples ≤ meanDraws3 f.length samples N R ∧
        meanDraws3 f.length samples N (fun rs => (R rs - meanDraws3 f.length samples N R) ^ 2) ≤
          ((List.range f.length).map (bitRate N f g)).sum ^ 2 / (2 * samples)) := by
  obtain ⟨i, j, hij, hj, hi0, hj0⟩ := htwo
  have hlen : (xorDiff f g).length = f.length := by simp [xorDiff, hl]
  match acts, hacts with
  | [], hacts =>
    have := hacts.1.length_eq
    simp [activations, hlen] at this
    have h0 : f.length = 0 := by simp [← this]
    omega
  | (idx0, act0) :: rest, hacts =>
    obtain ⟨hmem, hin, hrest, hrl, hsum, hmax⟩ := acts_facts f g N hl hf hg hacts
    have hnn : ∀ q ∈ rest.map Prod.snd, 0 ≤ q := by
      intro q hq
      obtain ⟨p, hp, rfl⟩ := List.mem_map.mp hq
      rw [(hmem p (by simp [hp])).2]
      exact (bitRate_bounds _ _ _ _).1
    have hpos : 0 < (rest.map Prod.snd).sum := by
      have hex : ∃ p ∈ rest, 0 < p.2 := by
        rcases List.mem_cons.mp (hin j hj) with h | h
        · rcases List.mem_cons.mp (hin i (by omega)) with h' | h'
          · have := (Prod.mk.inj h).1
            have := (Prod.mk.inj h').1
            omega
          · exact ⟨_, h', hi0⟩
        · exact ⟨_, h, hj0⟩
      obtain ⟨p, hp, hp0⟩ := hex
      exact lt_of_lt_of_le hp0 (List.single_le_sum hnn _ (List.mem_map_of_mem hp))
    obtain ⟨hd0, hact0⟩ := hmem (idx0, act0) (by simp)
    simp only at hd0 hact0
    have hi0' : idx0 < (xorDiff f g).length := by omega
    have hv : vget (xorDiff f g) idx0 = .ok ((xorDiff f g).getD idx0 .zero) := vget_eq _ _ _ hi0'
    have hdiff := fits_xorDiff f g hf hg
    have hE : Fits N [(xorDiff f g).getD idx0 .zero] := by
      intro b hb
      rw [List.mem_singleton] at hb
      subst hb
      rw [List.getD_eq_getElem _ _ hi0']
      exact hdiff _ (List.getElem_mem _)
    have hpr : ∀ p ∈ rest, p.1 < (xorDiff f g).length ∧
        p.2 = ((xorDiff f g).getD p.1 .zero).edge.frac ∧ p.2 ≤ (rest.map Prod.snd).sum := by
      intro p hp
      obtain ⟨h5, h6⟩ := hmem p (by simp [hp])
      have h7 : p.1 < (xorDiff f g).length := by omega
      refine ⟨h7, ?_, List.single_le_sum hnn _ (List.mem_map_of_mem hp)⟩
      rw [h6, List.getD_eq_getElem _ _ h7, xorDiff_frac f g hl hf hg]
    have hact00 : act0 = unionRate N [(xorDiff f g).getD idx0 .zero] := by
      rw [hact0, List.getD_eq_getElem _ _ hi0', ← xorDiff_frac f g hl hf hg idx0 hi0',
        BDD.frac_eq_mean N _ (hdiff _ (List.getElem_mem _))]
      apply mean_congr
      intro x
      simp only [List.mem_singleton, exists_eq_left]
      rfl
    have hunion : unionRate N ([(xorDiff f g).getD idx0 .zero] ++
        rest.map (fun p => (xorDiff f g).getD p.1 .zero)) = mean N (fun x => if bitsAt f x = bitsAt g x then 0 else 1) := by
      rw [← unionRate_xorDiff f g hl N]
      apply unionRate_perm
      intro b
      constructor
      · intro hb
        rcases List.mem_append.mp hb with h | h
        · rw [List.mem_singleton] at h
          rw [h, List.getD_eq_getElem _ _ hi0']
          exact List.getElem_mem _
        · obtain ⟨p, hp, rfl⟩ := List.mem_map.mp h
          have := (hpr p hp).1
          rw [List.getD_eq_getElem _ _ this]
          exact List.getElem_mem _
      · intro hb
        obtain ⟨k, hk, rfl⟩ := List.mem_iff_getElem.mp hb
        rcases List.mem_cons.mp (hin k (by omega)) with h | h
        · have := (Prod.mk.inj h).1
          subst this
          rw [List.getD_eq_getElem _ _ hi0']
          simp
        · exact List.mem_append.mpr (.inr (List.mem_map.mpr ⟨_, h, by rw [List.getD_eq_getElem _ _ hk]⟩))
    obtain ⟨b1, b2⟩ := effSum_mean hm (xorDiff f g) N hdiff samples f.length (rest.map Prod.snd).sum hpos
      rest 1 [(xorDiff f g).getD idx0 .zero] (by omega) hpr
    rw [hunion, ← hact00] at b1 b2
    have hN0 : (0 : ℚ) ≤ (N : ℚ) / drawRange := by positivity
    have hacta : 0 ≤ act0 := by rw [hact0]; exact (bitRate_bounds _ _ _ _).1
    refine ⟨fun rs => act0 + effSum (xorDiff f g) N samples (rest.map Prod.snd).sum rs 1
      [(xorDiff f g).getD idx0 .zero] rest, fun rs => ?_, fun rs => ?_, ?_, fun hsamp => ?_, fun hs1 => ⟨?_, ?_⟩⟩
    · have key := effLoop_sum hm (xorDiff f g) N hdiff samples hs (rest.map Prod.snd).sum hpos rs rest 1
        [(xorDiff f g).getD idx0 .zero] act0 hE (fun p hp => by
          obtain ⟨a1, a2, a3⟩ := hpr p hp
          exact ⟨a1, hnn _ (List.mem_map_of_mem hp), a3⟩)
      unfold errorRateEfficientSampling
      rw [if_neg (by simp [hl])]
      dsimp only
      rw [if_neg (by omega), if_neg (by omega)]
      simp only [hv, bind, Except.bind, hmax, add_sub_cancel_left, key]
    · have := effSum_range (xorDiff f g) N samples (rest.map Prod.snd).sum rs rest 1
        [(xorDiff f g).getD idx0 .zero] (fun p hp => hnn _ (List.mem_map_of_mem hp))
      rw [← hsum]
      constructor <;> dsimp only <;> linarith [this.1, this.2]
    · rw [meanDraws3_add, meanDraws3_const, ← hsum]
      have := mul_nonneg hN0 hacta
      linarith
    · rw [meanDraws3_add, meanDraws3_const]
      have hz := skippedRate_zero samples (rest.map Prod.snd).sum rest (fun p hp => hnn _ (List.mem_map_of_mem hp))
        (fun p hp hp0 => by
        obtain ⟨h5, h6⟩ := hmem p (by simp [hp])
        rw [h6] at hp0 ⊢
        have := hsamp p.1 hp0
        rw [← hsum] at this
        linarith)
      rw [hz] at b2
      have := mul_nonneg hN0 hacta
      linarith
    · rw [meanDraws3_add, meanDraws3_const, ← hsum]
      have hz := (skippedRate_bounds samples hs1 (rest.map Prod.snd).sum hpos.le rest
        (fun p hp => hnn _ (List.mem_map_of_mem hp))).2
      have hsp : (0 : ℚ) < samples := by exact_mod_cast hs1
      have hll : (rest.length : ℚ) ≤ f.length := by exact_mod_cast (by omega : rest.length ≤ f.length)
      have h2 : (rest.length : ℚ) * (rest.map Prod.snd).sum / samples ≤
          f.length * (act0 + (rest.map Prod.snd).sum) / samples := by
        apply div_le_div_of_nonneg_right _ hsp.le
        exact mul_le_mul hll (by linarith) hpos.le (by positivity)
      have := mul_nonneg hN0 hacta
      linarith
    · have hv := effSum_variance (xorDiff f g) N samples f.length hs1 (rest.map Prod.snd).sum hpos rest 1
        [(xorDiff f g).getD idx0 .zero] (by omega) (fun p hp => ⟨hnn _ (List.mem_map_of_mem hp), (hpr p hp).2.2⟩)
      rw [meanDraws3_add, meanDraws3_const]
      simp only [add_sub_add_left_eq_sub]
      refine le_trans hv ?_
      have hsp : (0 : ℚ) < samples := by exact_mod_cast hs1
      apply div_le_div_of_nonneg_right _ (by positivity)
      rw [← hsum, sq]
      exact mul_le_mul (by linarith) (by linarith) hpos.le (by linarith)

end Verif

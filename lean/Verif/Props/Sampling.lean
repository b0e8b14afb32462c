import Verif.Props.Average
import Verif.Props.Nodes

/-!
# C38: where the efficient sampling is exact
-/

namespace Verif

variable {m : Mgr}

theorem goodLoop_extreme (hm : m.Mono) (d : BDD m) (readSize : Nat) (hd : Fits readSize [d])
    (hsat : ∃ x, d.eval x = true) (earlier : List (BDD m)) (he : Fits readSize earlier)
    (rs : Nat → Nat → Nat) (hrs : ∀ b v, rs b v ≤ randMax ∧ rs b v ≠ 0) (all : Bool)
    (hall : ∀ x, d.eval x = true → ((∃ b ∈ earlier, b.eval x = true) ↔ all = false)) : ∀ k b,
    goodLoop d (countMinterms d) readSize earlier rs b k = .ok (if all then k else 0)
  | 0, _ => by cases all <;> rfl
  | k + 1, b => by
      obtain ⟨l, hl, hlen, _, hx⟩ := C20_random_satisfying_input_partial hm d readSize hsat hd (rs b)
        (fun i => (hrs b i).1) (fun i => (hrs b i).2)
      have ha := anyOne_spec (inp := l) earlier (by rw [hlen]; exact he)
      have ih := goodLoop_extreme hm d readSize hd hsat earlier he rs hrs all hall k (b + 1)
      simp only [goodLoop, hl, ha, ih, bind, Except.bind]
      have := hall _ hx
      cases all
      · have h1 := this.mpr rfl
        simp [h1]
      · have h1 : ¬ ∃ b ∈ earlier, b.eval (asgOf l) = true := fun h => by simpa using this.mp h
        simp only [h1, decide_false, Bool.not_false, Bool.toNat_true, if_true]
        rw [Nat.add_comm]

theorem effLoop_extreme (hm : m.Mono) (diff : List (BDD m)) (readSize : Nat) (hN : Fits readSize diff)
    (samples : Int) (hs0 : 0 ≤ samples) (hs : samples < 2 ^ 31) (denom : ℚ) (hd : 0 < denom)
    (rs : Nat → Nat → Nat → Nat) (hrs : ∀ i b v, rs i b v ≤ randMax ∧ rs i b v ≠ 0) (all : Bool)
    (hall : all = true → ∀ a ∈ diff, 0 < a.edge.frac → denom ≤ samples * a.edge.frac) :
    ∀ (acts : List (Nat × ℚ)) (i : Nat) (earlier : List (BDD m)) (rate : ℚ), Fits readSize earlier →
    (∀ p ∈ acts, ∃ h : p.1 < diff.length, p.2 = diff[p.1].edge.frac ∧ p.2 ≤ denom) →
    (∀ p ∈ acts, ∀ (h : p.1 < diff.length) x, diff[p.1].eval x = true →
      ((∃ b ∈ earlier, b.eval x = true) ↔ all = false)) →
    (all = true → acts.Pairwise (fun p q => ∀ (h : p.1 < diff.length) (h' : q.1 < diff.length) x,
      ¬ (diff[p.1].eval x = true ∧ diff[q.1].eval x = true))) →
    effLoop diff readSize samples denom rs i earlier acts rate
      = .ok (if all then rate + (acts.map Prod.snd).sum else rate)
  | [], i, earlier, rate, _, _, _, _ => by cases all <;> simp [effLoop]
  | (idx, act) :: rest, i, earlier, rate, he, hp, hpe, hpw => by
      obtain ⟨hidx, ha, ha1⟩ := hp (idx, act) (by simp)
      simp only at hidx ha ha1
      have ha0 : 0 ≤ act := by rw [ha]; exact (frac_bounds diff[idx].wf).1
      have hsq : (0 : ℚ) ≤ samples := by exact_mod_cast hs0
      have hq0 : 0 ≤ (samples : ℚ) * act / denom := div_nonneg (mul_nonneg hsq ha0) hd.le
      have hq1 : (samples : ℚ) * act / denom ≤ samples := by
        rw [div_le_iff₀ hd]
        exact mul_le_mul_of_nonneg_left ha1 hsq
      have hfl0 : 0 ≤ ⌊(samples : ℚ) * act / denom⌋ := Int.floor_nonneg.mpr hq0
      have hfl1 : ⌊(samples : ℚ) * act / denom⌋ ≤ samples := by
        have := le_trans (Int.floor_le _) hq1
        exact_mod_cast this
      have hd' : vget diff idx = .ok diff[idx] := by
        have := vget_eq diff idx diff[idx] hidx
        rwa [List.getD_eq_getElem _ _ hidx] at this
      have he' : Fits readSize (earlier ++ [diff[idx]]) := by
        intro b hb
        rcases List.mem_append.mp hb with h | h
        · exact he b h
        · rw [List.mem_singleton] at h; subst h
          exact hN _ (List.getElem_mem hidx)
      have ih := fun r => effLoop_extreme hm diff readSize hN samples hs0 hs denom hd rs hrs all hall rest
        (i + 1) (earlier ++ [diff[idx]]) r he' (fun p hpm => hp p (by simp [hpm]))
        (fun p hpm h x hx => by
          have h1 := hpe p (by simp [hpm]) h x hx
          cases all
          · simp only [iff_true] at h1 ⊢
            obtain ⟨b, hb, hbx⟩ := h1
            exact ⟨b, by simp [hb], hbx⟩
          · simp only [Bool.true_eq_false, iff_false] at h1 ⊢
            rintro ⟨b, hb, hbx⟩
            rcases List.mem_append.mp hb with hb | hb
            · exact h1 ⟨b, hb, hbx⟩
            · rw [List.mem_singleton] at hb
              subst hb
              exact (List.pairwise_cons.mp (hpw rfl)).1 p hpm hidx h x ⟨hbx, hx⟩)
        (fun h => (List.pairwise_cons.mp (hpw h)).2)
      rw [effLoop, if_neg hd.ne']
      simp only [if_pos hq0]
      rw [if_neg (by omega)]
      simp only [hd', bind, Except.bind]
      split
      · rename_i hz
        rw [ih]
        cases all
        · rfl
        · simp only [if_true, List.map_cons, List.sum_cons]
          have : act = 0 := by
            by_contra hne
            have hpos : 0 < act := lt_of_le_of_ne ha0 (Ne.symm hne)
            have h2 := hall rfl diff[idx] (List.getElem_mem hidx) (ha ▸ hpos)
            rw [← ha] at h2
            have h3 : 1 ≤ ⌊(samples : ℚ) * act / denom⌋ := by
              rw [Int.le_floor, Int.cast_one, le_div_iff₀ hd, one_mul]
              exact h2
            omega
          rw [this, zero_add]
      · rename_i hne
        have hpos : (0 : ℚ) < (⌊(samples : ℚ) * act / denom⌋ : ℚ) := by
          have : 0 < ⌊(samples : ℚ) * act / denom⌋ := lt_of_le_of_ne hfl0 (Ne.symm hne)
          exact_mod_cast this
        have hact : 0 < act := by
          rcases lt_or_eq_of_le ha0 with h | h
          · exact h
          · rw [← h] at hne; simp at hne
        have hsat : ∃ x, diff[idx].eval x = true :=
          (frac_pos_iff diff[idx].wf).mp (ha ▸ hact)
        have hg := goodLoop_extreme hm diff[idx] readSize (fun b hb => by
            rw [List.mem_singleton] at hb; subst hb; exact hN _ (List.getElem_mem hidx)) hsat earlier he
          (rs i) (hrs i) all (fun x hx => hpe (idx, act) (by simp) hidx x hx)
          ⌊(samples : ℚ) * act / denom⌋.toNat 0
        simp only [hg]
        rw [ih]
        have hcast : ((⌊(samples : ℚ) * act / denom⌋.toNat : Nat) : ℚ) = (⌊(samples : ℚ) * act / denom⌋ : ℚ) := by
          have h4 : ((⌊(samples : ℚ) * act / denom⌋.toNat : Nat) : Int) = ⌊(samples : ℚ) * act / denom⌋ :=
            Int.toNat_of_nonneg hfl0
          exact_mod_cast congrArg (Int.cast : Int → ℚ) h4
        cases all
        · simp
        · simp only [if_true, List.map_cons, List.sum_cons, hcast, div_self hpos.ne', mul_one, add_assoc]

theorem xorDiff_eval (f g : List (BDD m)) (hl : f.length = g.length) (i : Nat)
    (hi : i < (xorDiff f g).length) (x : Asg) :
    (xorDiff f g)[i].eval x = true ↔ (bitsAt f x)[i]? ≠ (bitsAt g x)[i]? := by
  have hlen : (xorDiff f g).length = f.length := by simp [xorDiff, hl]
  have h1 : i < f.length := by omega
  have h2 : i < g.length := by omega
  simp only [xorDiff, List.getElem_zipWith, BDD.eval_xor, bitsAt, List.getElem?_map,
    List.getElem?_eq_getElem h1, List.getElem?_eq_getElem h2, Option.map_some, ne_eq, Option.some.injEq]
  cases f[i].eval x <;> cases g[i].eval x <;> simp

theorem xorDiff_frac (f g : List (BDD m)) (hl : f.length = g.length) {N : Nat} (hf : Fits N f)
    (hg : Fits N g) (i : Nat) (hi : i < (xorDiff f g).length) :
    (xorDiff f g)[i].edge.frac = bitRate N f g i := by
  rw [BDD.frac_eq_mean N _ (fits_xorDiff f g hf hg _ (List.getElem_mem _))]
  apply mean_congr
  intro x
  have := xorDiff_eval f g hl i hi x
  by_cases h : (bitsAt f x)[i]? = (bitsAt g x)[i]?
  · have h0 : (xorDiff f g)[i].eval x = false := by
      rw [← Bool.not_eq_true, this]; simpa using h
    simp [h, h0]
  · rw [if_neg h, this.mpr h]; simp

/-- What both exactness theorems share. -/
theorem efficient_extreme (hm : m.Mono) (f g : List (BDD m)) (readSize samples : Nat)
    (acts : List (Nat × ℚ)) (rs : Nat → Nat → Nat → Nat) (hl : f.length = g.length)
    (hf : Fits readSize f) (hg : Fits readSize g) (h0 : 1 ≤ readSize) (h1 : readSize ≤ 1024)
    (hs : samples < 2 ^ 31) (hrs : ∀ i b v, rs i b v ≤ randMax ∧ rs i b v ≠ 0)
    (hacts : SortedActs (xorDiff f g) acts)
    (htwo : ∃ i j, i < j ∧ j < f.length ∧ 0 < bitRate readSize f g i ∧ 0 < bitRate readSize f g j)
    (all : Bool)
    (hnest : all = false → ∀ k, k < f.length → (∀ i, bitRate readSize f g i ≤ bitRate readSize f g k) →
      ∀ x, bitsAt f x ≠ bitsAt g x → (bitsAt f x)[k]? ≠ (bitsAt g x)[k]?)
    (hdisj : all = true → ∀ i j : Nat, i < j → ∀ x, (bitsAt f x)[i]? = (bitsAt g x)[i]? ∨
      (bitsAt f x)[j]? = (bitsAt g x)[j]?)
    (hsamp : all = true → ∀ i, 0 < bitRate readSize f g i →
      ((List.range f.length).map (bitRate readSize f g)).sum ≤ samples * bitRate readSize f g i) :
    ∃ k, k < f.length ∧ (∀ i, bitRate readSize f g i ≤ bitRate readSize f g k) ∧
      errorRateEfficientSampling f g readSize samples acts rs = .ok (min 1 (if all then
        ((List.range f.length).map (bitRate readSize f g)).sum else bitRate readSize f g k)) := by
  obtain ⟨i, j, hij, hj, hi0, hj0⟩ := htwo
  have hlen : (xorDiff f g).length = f.length := by simp [xorDiff, hl]
  match acts, hacts with
  | [], hacts =>
    have := hacts.1.length_eq
    simp [activations, hlen] at this
    have h0 : f.length = 0 := by simp [← this]
    omega
  | (idx0, act0) :: rest, hacts =>
    obtain ⟨hmem, hin, hrest, hrl, hsum, hmax⟩ := acts_facts f g readSize hl hf hg hacts
    have hnn : ∀ q ∈ rest.map Prod.snd, 0 ≤ q := by
      intro q hq
      obtain ⟨p, hp, rfl⟩ := List.mem_map.mp hq
      rw [(hmem p (by simp [hp])).2]
      exact (bitRate_bounds _ _ _ _).1
    have hpos : 0 < (rest.map Prod.snd).sum := by
      have hex : ∃ p ∈ rest, 0 < p.2 := by
        rcases List.mem_cons.mp (hin j hj) with h | h
        · rcases List.mem_cons.mp (hin i (by omega)) with h' | h'
          · have := (Prod.mk.inj h).1
            have := (Prod.mk.inj h').1
            omega
          · exact ⟨_, h', hi0⟩
        · exact ⟨_, h, hj0⟩
      obtain ⟨p, hp, hp0⟩ := hex
      exact lt_of_lt_of_le hp0 (List.single_le_sum hnn _ (List.mem_map_of_mem hp))
    obtain ⟨hd0, hact0⟩ := hmem (idx0, act0) (by simp)
    simp only at hd0 hact0
    have htop : ∀ k, bitRate readSize f g k ≤ bitRate readSize f g idx0 := by
      intro k
      rw [← hact0]
      by_cases hk : k < f.length
      · rcases List.mem_cons.mp (hin k hk) with h | h
        · exact (Prod.mk.inj h).2.le
        · exact (hrest _ h).1
      · have : bitRate readSize f g k = 0 := by
          rw [bitRate, ← mean_const readSize 0]
          apply mean_congr
          intro x
          rw [List.getElem?_eq_none (by simp [bitsAt]; omega),
            List.getElem?_eq_none (by simp [bitsAt]; omega), if_pos rfl, mean_const]
        rw [this, hact0]
        exact (bitRate_bounds _ _ _ _).1
    refine ⟨idx0, hd0, htop, ?_⟩
    have hi0' : idx0 < (xorDiff f g).length := by omega
    have hv : vget (xorDiff f g) idx0 = .ok ((xorDiff f g)[idx0]) := by
      rw [vget_eq _ _ ((xorDiff f g)[idx0]) hi0', List.getD_eq_getElem _ _ hi0']
    have hdiff := fits_xorDiff f g hf hg
    have hnodup : (((idx0, act0) :: rest).map Prod.fst).Nodup := by
      rw [(hacts.1.map Prod.fst).nodup_iff, activations, List.map_fst_zip (by simp)]
      exact List.nodup_range
    have key := effLoop_extreme hm (xorDiff f g) readSize hdiff samples (by omega) (by omega)
      (rest.map Prod.snd).sum hpos rs hrs all (fun ha a hamem hafrac => by
        obtain ⟨n, hn, rfl⟩ := List.mem_iff_getElem.mp hamem
        rw [xorDiff_frac f g hl hf hg] at hafrac ⊢
        have h2 := hsamp ha n hafrac
        rw [← hsum] at h2
        have h3 : 0 ≤ act0 := by rw [hact0]; exact (bitRate_bounds _ _ _ _).1
        have h4 : ((samples : Int) : ℚ) = (samples : ℚ) := Int.cast_natCast _
        rw [h4]
        linarith) rest 1 [(xorDiff f g)[idx0]] act0
      (fun b hb => by
        rw [List.mem_singleton] at hb
        subst hb
        exact hdiff _ (List.getElem_mem _))
      (fun p hp => by
        obtain ⟨h5, h6⟩ := hmem p (by simp [hp])
        have h7 : p.1 < (xorDiff f g).length := by omega
        exact ⟨h7, by rw [h6, xorDiff_frac f g hl hf hg], List.single_le_sum hnn _ (List.mem_map_of_mem hp)⟩)
      (fun p hp h x hx => by
        simp only [List.mem_singleton, exists_eq_left]
        rw [xorDiff_eval f g hl] at hx ⊢
        cases all
        · simp only [iff_true]
          exact hnest rfl idx0 hd0 htop x (fun he => hx (by rw [he]))
        · simp only [Bool.true_eq_false, iff_false, not_not]
          have hne := (hrest p hp).2
          rcases Nat.lt_or_gt_of_ne hne with hlt | hlt
          · exact (hdisj rfl _ _ hlt x).resolve_left hx
          · exact (hdisj rfl _ _ hlt x).resolve_right hx)
      (fun ha => by
        rw [List.map_cons, List.nodup_cons] at hnodup
        have hpw : rest.Pairwise (fun a b => a.1 ≠ b.1) := List.pairwise_map.mp hnodup.2
        refine hpw.imp ?_
        intro p q hpq h h' x
        rw [xorDiff_eval f g hl, xorDiff_eval f g hl]
        rintro ⟨a1, a2⟩
        rcases Nat.lt_or_gt_of_ne hpq with hlt | hlt
        · rcases hdisj ha _ _ hlt x with h | h
          · exact a1 h
          · exact a2 h
        · rcases hdisj ha _ _ hlt x with h | h
          · exact a2 h
          · exact a1 h)
    unfold errorRateEfficientSampling
    rw [if_neg (by simp [hl])]
    dsimp only
    rw [if_neg (by omega), if_neg (by omega)]
    simp only [hv, bind, Except.bind, hmax, add_sub_cancel_left, key]
    rw [← hsum, ← hact0]

/-- If one output bit is wrong whenever any is, the estimate is the exact error rate, for every number
of samples and every random sequence without a draw of 0 (see C20). -/
theorem C38_efficient_sampling_nested (hm : m.Mono) (f g : List (BDD m)) (readSize samples : Nat)
    (acts : List (Nat × ℚ)) (rs : Nat → Nat → Nat → Nat) (hl : f.length = g.length)
    (hf : Fits readSize f) (hg : Fits readSize g) (h0 : 1 ≤ readSize) (h1 : readSize ≤ 1024)
    (hs : samples < 2 ^ 31) (hrs : ∀ i b v, rs i b v ≤ randMax ∧ rs i b v ≠ 0)
    (hacts : SortedActs (xorDiff f g) acts)
    (htwo : ∃ i j, i < j ∧ j < f.length ∧ 0 < bitRate readSize f g i ∧ 0 < bitRate readSize f g j)
    (hnest : ∃ k : Nat, ∀ x, bitsAt f x ≠ bitsAt g x → (bitsAt f x)[k]? ≠ (bitsAt g x)[k]?) :
    errorRateEfficientSampling f g readSize samples acts rs
      = .ok (mean readSize (fun x => if bitsAt f x = bitsAt g x then 0 else 1)) := by
  obtain ⟨k, hk⟩ := hnest
  have hrate : bitRate readSize f g k = mean readSize (fun x => if bitsAt f x = bitsAt g x then 0 else 1) := by
    apply mean_congr
    intro x
    by_cases h : bitsAt f x = bitsAt g x
    · simp [h]
    · rw [if_neg h, if_neg (hk x h)]
  have hcover : ∀ k', (∀ i, bitRate readSize f g i ≤ bitRate readSize f g k') →
      ∀ x, bitsAt f x ≠ bitsAt g x → (bitsAt f x)[k']? ≠ (bitsAt g x)[k']? := by
    intro k' hmax x hx he
    have hlt : bitRate readSize f g k' < bitRate readSize f g k := by
      rw [hrate]
      apply mean_lt readSize (fun y => ?_) (fun i => x i)
      · rw [bitsAt_ext hf, bitsAt_ext hg, if_pos he, if_neg hx]; norm_num
      · by_cases h : bitsAt f y = bitsAt g y
        · simp [h]
        · rw [if_neg h]; split <;> norm_num
    exact absurd (hmax k) (not_le.mpr hlt)
  obtain ⟨k', hk', hmax, he⟩ := efficient_extreme hm f g readSize samples acts rs hl hf hg h0 h1 hs hrs hacts
    htwo false (fun _ k' _ hmax x hx => hcover k' hmax x hx) (by simp) (by simp)
  rw [he]
  apply congrArg Except.ok
  simp only [Bool.false_eq_true, if_false]
  rw [min_eq_right (bitRate_bounds _ _ _ _).2]
  have : bitRate readSize f g k' = bitRate readSize f g k :=
    le_antisymm (by
      rw [hrate]
      exact (C38_bounds_enclose_error_rate f g readSize hl).1 k') (hmax k)
  rw [this, hrate]

/-- If no input has two wrong bits and no rate is too small for the number of samples, the estimate
is the exact error rate, too. -/
theorem C38_efficient_sampling_disjoint (hm : m.Mono) (f g : List (BDD m)) (readSize samples : Nat)
    (acts : List (Nat × ℚ)) (rs : Nat → Nat → Nat → Nat) (hl : f.length = g.length)
    (hf : Fits readSize f) (hg : Fits readSize g) (h0 : 1 ≤ readSize) (h1 : readSize ≤ 1024)
    (hs : samples < 2 ^ 31) (hrs : ∀ i b v, rs i b v ≤ randMax ∧ rs i b v ≠ 0)
    (hacts : SortedActs (xorDiff f g) acts)
    (htwo : ∃ i j, i < j ∧ j < f.length ∧ 0 < bitRate readSize f g i ∧ 0 < bitRate readSize f g j)
    (hdisj : ∀ i j : Nat, i < j → ∀ x, (bitsAt f x)[i]? = (bitsAt g x)[i]? ∨
      (bitsAt f x)[j]? = (bitsAt g x)[j]?)
    (hsamp : ∀ i, 0 < bitRate readSize f g i →
      ((List.range f.length).map (bitRate readSize f g)).sum ≤ samples * bitRate readSize f g i) :
    errorRateEfficientSampling f g readSize samples acts rs
      = .ok (mean readSize (fun x => if bitsAt f x = bitsAt g x then 0 else 1)) := by
  obtain ⟨k', hk', hmax, he⟩ := efficient_extreme hm f g readSize samples acts rs hl hf hg h0 h1 hs hrs hacts
    htwo true (by simp) (fun _ => hdisj) (fun _ => hsamp)
  rw [he]
  apply congrArg Except.ok
  simp only [if_true]
  have hsum : ((List.range f.length).map (bitRate readSize f g)).sum
      = mean readSize (fun x => if bitsAt f x = bitsAt g x then 0 else 1) := by
    unfold bitRate
    rw [← mean_sum readSize (List.range f.length) (fun i x =>
      if (bitsAt f x)[i]? = (bitsAt g x)[i]? then (0 : ℚ) else 1)]
    apply mean_congr
    intro x
    by_cases h : bitsAt f x = bitsAt g x
    · rw [if_pos h]
      apply List.sum_eq_zero
      intro z hz
      obtain ⟨i, _, rfl⟩ := List.mem_map.mp hz
      rw [if_pos (by rw [h])]
    · rw [if_neg h]
      have : ∃ i < f.length, (bitsAt f x)[i]? ≠ (bitsAt g x)[i]? := by
        by_contra hc
        push Not at hc
        apply h
        apply List.ext_getElem?
        intro i
        by_cases hi : i < f.length
        · exact hc i hi
        · rw [List.getElem?_eq_none (by simp [bitsAt]; omega),
            List.getElem?_eq_none (by simp [bitsAt]; omega)]
      obtain ⟨i, hi, hne⟩ := this
      have hone : ∀ (l : List Nat), l.Nodup → i ∈ l →
          (l.map (fun i => if (bitsAt f x)[i]? = (bitsAt g x)[i]? then (0 : ℚ) else 1)).sum = 1 := by
        intro l
        induction l with
        | nil => intro _ h; simp at h
        | cons a as ih =>
          intro hnd hm
          rw [List.nodup_cons] at hnd
          rw [List.map_cons, List.sum_cons]
          have hother : ∀ j, j ≠ i → (bitsAt f x)[j]? = (bitsAt g x)[j]? := by
            intro j hj
            rcases Nat.lt_or_gt_of_ne hj with hlt | hlt
            · exact (hdisj _ _ hlt x).resolve_right hne
            · exact (hdisj _ _ hlt x).resolve_left hne
          by_cases ha : a = i
          · subst ha
            rw [if_neg hne]
            have : (as.map (fun i => if (bitsAt f x)[i]? = (bitsAt g x)[i]? then (0 : ℚ) else 1)).sum = 0 := by
              apply List.sum_eq_zero
              intro z hz
              obtain ⟨j, hj, rfl⟩ := List.mem_map.mp hz
              rw [if_pos (hother j (fun h => hnd.1 (h ▸ hj)))]
            rw [this, add_zero]
          · rw [if_pos (hother a ha), zero_add]
            exact ih hnd.2 ((List.mem_cons.mp hm).resolve_left (fun h => ha h.symm))
      exact hone _ List.nodup_range (List.mem_range.mpr hi)
  rw [hsum, min_eq_right]
  have := mean_mono readSize (h := fun _ => 1) (g := fun x => if bitsAt f x = bitsAt g x then (0 : ℚ) else 1)
    (fun x => by split <;> norm_num)
  rwa [mean_const] at this

/-- Nested differences: bit 0 is wrong whenever bit 1 is. -/
example : errorRateEfficientSampling [(BDD.var 0 : BDD .id), (BDD.var 0).and (.var 1)] [.zero, .zero] 2 10
    [(0, 1 / 2), (1, 1 / 4)] (fun _ b v => b + v + 1) = .ok (1 / 2) ∧
    activations (xorDiff [(BDD.var 0 : BDD .id), (BDD.var 0).and (.var 1)] [.zero, .zero])
      = [(0, 1 / 2), (1, 1 / 4)] := by
  decide +kernel

/-- Disjoint differences. -/
example : errorRateEfficientSampling [(BDD.var 0 : BDD .id), (BDD.var 0).not.and (.var 1)] [.zero, .zero] 2 10
    [(0, 1 / 2), (1, 1 / 4)] (fun _ b v => b + v + 1) = .ok (3 / 4) := by
  decide +kernel

end Verif

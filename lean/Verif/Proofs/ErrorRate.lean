import Verif.Proofs.Average
import Verif.Props.Nodes

/-!
# Lemmas on the error rates and the bit flip error
-/

namespace Verif

variable {m : Mgr}

theorem miterLoop_spec : ∀ (f g : List (BDD m)) (acc : BDD m), f.length ≤ g.length →
    ∃ r, miterLoop f g acc = .ok r ∧
      ∀ x, r.eval x = (acc.eval x || decide (bitsAt f x ≠ bitsAt (g.take f.length) x))
  | [], g, acc, _ => ⟨acc, rfl, fun x => by simp⟩
  | a :: as, [], acc, h => by simp at h
  | a :: as, b :: bs, acc, h => by
      obtain ⟨r, hr, hv⟩ := miterLoop_spec as bs (acc.or (a.xor b)) (by simpa using h)
      refine ⟨r, hr, fun x => ?_⟩
      rw [hv x]
      simp only [BDD.eval_or, BDD.eval_xor, List.length_cons, List.take_succ_cons, bitsAt_cons,
        List.cons.injEq, ne_eq, not_and_or]
      cases acc.eval x <;> cases a.eval x <;> cases b.eval x <;> simp

theorem miterLoop_ub : ∀ (f g : List (BDD m)) (acc : BDD m), g.length < f.length →
    miterLoop f g acc = .error .ub
  | [], g, acc, h => by simp at h
  | a :: as, [], acc, _ => rfl
  | a :: as, b :: bs, acc, h => miterLoop_ub as bs _ (by simpa using h)

theorem fits_of_eval {N : Nat} {b : BDD m}
    (h : ∀ x y : Asg, (∀ v, v < N → x v = y v) → b.eval x = b.eval y) :
    ∀ v ∈ b.supportIndices, v < N := by
  have : Fits N [b] := fits_of_uAt (fun x y hxy => by simp [h x y hxy])
  exact this b (by simp)

/-- The error rate for vectors of which the second is at least as long as the first. -/
theorem errorRate_spec (f g : List (BDD m)) (N : Nat) (hl : f.length ≤ g.length)
    (hN : Fits N (f ++ g)) (hN' : N ≤ 1024) :
    errorRate f g = .ok (mean N (fun x =>
      if bitsAt f x = bitsAt (g.take f.length) x then 0 else 1)) := by
  by_cases hne : g = []
  · subst hne
    obtain rfl : f = [] := List.length_eq_zero_iff.mp (Nat.le_zero.mp hl)
    have e : errorRate ([] : List (BDD m)) [] = .ok 0 := by
      simp [errorRate, miterLoop, terminalLevel, bind, Except.bind]
    rw [e]
    simp [mean_const]
  obtain ⟨r, hr, hv⟩ := miterLoop_spec f g .zero hl
  have hfit : ∀ v ∈ r.supportIndices, v < N := fits_of_eval (fun x y hxy => by
    rw [hv, hv, bitsAt_agree (N := N) (fun b hb => hN b (by simp [hb])) hxy,
      bitsAt_agree (f := g.take f.length) (N := N)
        (fun b hb => hN b (by simp [List.mem_of_mem_take hb])) hxy]
    rfl)
  obtain ⟨b, bs, rfl⟩ := List.exists_cons_of_ne_nil hne
  have htl1 : 0 < terminalLevel [f, b :: bs] :=
    terminalLevel_pos (f := b :: bs) (b := b) (by simp) (by simp)
  have htl2 : terminalLevel [f, b :: bs] ≤ 1024 := by
    apply terminalLevel_le (by norm_num)
    intro h hh c hc v hvc
    have : v < N := by
      simp only [List.mem_cons, List.not_mem_nil, or_false] at hh
      rcases hh with rfl | rfl
      · exact hN c (by simp [hc]) v hvc
      · exact hN c (List.mem_append.mpr (.inr hc)) v hvc
    omega
  have hnv : (terminalLevel [f, b :: bs] + 2 ^ 32 - 1) % 2 ^ 32 = terminalLevel [f, b :: bs] - 1 := by
    omega
  have hp : (2 : ℚ) ^ (terminalLevel [f, b :: bs] - 1) ≠ 0 := by positivity
  have hpw : pow2 (terminalLevel [f, b :: bs] - 1) = .ok (2 ^ (terminalLevel [f, b :: bs] - 1)) := by
    rw [pow2, if_neg (by omega)]
  have hred : errorRate f (b :: bs) = fdiv (r.countMinterm (terminalLevel [f, b :: bs] - 1))
      (2 ^ (terminalLevel [f, b :: bs] - 1)) := by
    unfold errorRate
    rw [hr, hnv]
    simp only [bind, Except.bind, hpw]
    rw [if_neg (by omega)]
  rw [hred, fdiv, if_neg hp]
  apply congrArg Except.ok
  rw [BDD.countMinterm, mul_div_assoc, div_self hp, mul_one, BDD.frac_eq_mean N r hfit]
  apply mean_congr
  intro x
  rw [hv x]
  by_cases h : bitsAt f x = bitsAt ((b :: bs).take f.length) x <;> simp [h, ind]

/-! ## Sampling -/

theorem anyOne_spec {inp : List Nat} : ∀ (d : List (BDD m)), Fits inp.length d →
    anyOne inp d = .ok (decide (∃ b ∈ d, b.eval (asgOf inp) = true))
  | [], _ => by simp [anyOne]
  | b :: bs, h => by
      have hb := BDD.evalIn_eq (inp := inp) (f := b) (h b (by simp))
      have ih := anyOne_spec bs (fun c hc => h c (by simp [hc]))
      simp only [anyOne, hb, ih, bind, Except.bind]
      by_cases h1 : b.eval (asgOf inp) = true
      · simp [h1]
      · simp [h1]

theorem xorDiff_spec : ∀ (f g : List (BDD m)), f.length = g.length → ∀ x,
    (∃ b ∈ xorDiff f g, b.eval x = true) ↔ bitsAt f x ≠ bitsAt g x
  | [], [], _, x => by simp [xorDiff]
  | a :: as, b :: bs, h, x => by
      have ih := xorDiff_spec as bs (by simpa using h) x
      simp only [xorDiff, List.zipWith_cons_cons, List.mem_cons, exists_eq_or_imp, BDD.eval_xor,
        bitsAt_cons, ne_eq, List.cons.injEq, not_and_or]
      rw [xorDiff] at ih
      rw [ih]
      cases a.eval x <;> cases b.eval x <;> simp
  | [], b :: bs, h, x => by simp at h
  | a :: as, [], h, x => by simp at h

theorem fits_xorDiff {N : Nat} : ∀ (f g : List (BDD m)), Fits N f → Fits N g → Fits N (xorDiff f g)
  | [], g, _, _ => by simp [xorDiff, Fits]
  | a :: as, [], _, _ => by simp [xorDiff, Fits]
  | a :: as, b :: bs, hf, hg => by
      have ih := fits_xorDiff as bs (fun c hc => hf c (by simp [hc])) (fun c hc => hg c (by simp [hc]))
      intro c hc
      simp only [xorDiff, List.zipWith_cons_cons, List.mem_cons] at hc
      rcases hc with rfl | hc
      · apply fits_of_eval
        intro x y hxy
        rw [BDD.eval_xor, BDD.eval_xor, BDD.eval_congr (f := a) (fun v hv => hxy v (hf a (by simp) v hv)),
          BDD.eval_congr (f := b) (fun v hv => hxy v (hg b (by simp) v hv))]
      · exact ih c hc

/-- The input drawn for sample `i`. -/
def drawn (readSize : Nat) (rs : Nat → Nat → Nat) (i : Nat) : Asg :=
  asgOf ((List.range readSize).map (fun v => rs i v % 2))

theorem samplingLoop_spec (f g : List (BDD m)) (readSize : Nat) (rs : Nat → Nat → Nat)
    (hl : f.length = g.length) (hf : Fits readSize f) (hg : Fits readSize g) : ∀ k i,
    samplingLoop (xorDiff f g) readSize rs i k = .ok (((List.range k).filter (fun j =>
      decide (bitsAt f (drawn readSize rs (i + j)) ≠ bitsAt g (drawn readSize rs (i + j))))).length)
  | 0, i => by simp [samplingLoop]
  | k + 1, i => by
      have hd := anyOne_spec (inp := (List.range readSize).map (fun v => rs i v % 2)) (xorDiff f g)
        (by rw [List.length_map, List.length_range]; exact fits_xorDiff f g hf hg)
      have ih := samplingLoop_spec f g readSize rs hl hf hg k (i + 1)
      simp only [samplingLoop, hd, ih, bind, Except.bind]
      congr 1
      rw [List.range_succ_eq_map, List.filter_cons, List.filter_map, Nat.add_zero]
      have e : (∃ b ∈ xorDiff f g, b.eval (asgOf ((List.range readSize).map (fun v => rs i v % 2))) = true) ↔
          bitsAt f (drawn readSize rs i) ≠ bitsAt g (drawn readSize rs i) := xorDiff_spec f g hl _
      have e2 : ((fun j => decide (bitsAt f (drawn readSize rs (i + j)) ≠
          bitsAt g (drawn readSize rs (i + j)))) ∘ Nat.succ) = fun j =>
          decide (bitsAt f (drawn readSize rs (i + 1 + j)) ≠ bitsAt g (drawn readSize rs (i + 1 + j))) := by
        funext j
        simp only [Function.comp, Nat.succ_eq_add_one, show i + (j + 1) = i + 1 + j by omega]
      rw [e2]
      simp only [e]
      by_cases h : bitsAt f (drawn readSize rs i) = bitsAt g (drawn readSize rs i)
      · simp [h]
      · simp [h]; omega

/-! ## Efficient sampling -/

theorem randomSatLoop_total (cnt : NMap ℚ) (rs : Nat → Nat) : ∀ (k level : Nat) (a : Edge),
    (∀ b ∈ a.n.reach a.neg, ∃ q, NMap.find cnt b = some q) →
    ∃ l, randomSatLoop cnt rs k level a = .ok l ∧ l.length = k
  | 0, level, ⟨neg, .one⟩, _ => ⟨[], by simp [randomSatLoop], rfl⟩
  | 0, level, ⟨neg, .node v t c e⟩, _ => ⟨[], by simp [randomSatLoop], rfl⟩
  | k + 1, level, ⟨neg, .one⟩, hc => by
      obtain ⟨l, hl, hlen⟩ := randomSatLoop_total cnt rs k (level + 1) ⟨neg, .one⟩ hc
      exact ⟨rs level % 2 :: l, by simp [randomSatLoop, hl, bind, Except.bind], by simp [hlen]⟩
  | k + 1, level, ⟨neg, .node v t c e⟩, hc => by
      by_cases hlv : level < v
      · obtain ⟨l, hl, hlen⟩ := randomSatLoop_total cnt rs k (level + 1) ⟨neg, .node v t c e⟩ hc
        exact ⟨rs level % 2 :: l, by simp [randomSatLoop, hlv, hl, bind, Except.bind], by simp [hlen]⟩
      · obtain ⟨tw, ht⟩ := hc ⟨neg, t⟩ (by
          simp only [DD.reach, List.mem_cons, List.mem_append]
          exact .inr (.inl (DD.self_mem_reach t neg)))
        obtain ⟨ew, he⟩ := hc ⟨neg ^^ c, e⟩ (by
          simp only [DD.reach, List.mem_cons, List.mem_append]
          exact .inr (.inr (DD.self_mem_reach e _)))
        obtain ⟨l1, hl1, hlen1⟩ := randomSatLoop_total cnt rs k (level + 1) ⟨neg, t⟩
          (fun b hb => hc b (by
            simp only [DD.reach, List.mem_cons, List.mem_append]; exact .inr (.inl hb)))
        obtain ⟨l2, hl2, hlen2⟩ := randomSatLoop_total cnt rs k (level + 1) ⟨neg ^^ c, e⟩
          (fun b hb => hc b (by
            simp only [DD.reach, List.mem_cons, List.mem_append]; exact .inr (.inr hb)))
        rw [randomSatLoop, if_neg hlv, ht, he]
        simp only
        split
        · exact ⟨1 :: l1, by simp [hl1, bind, Except.bind], by simp [hlen1]⟩
        · exact ⟨0 :: l2, by simp [hl2, bind, Except.bind], by simp [hlen2]⟩

theorem randomSat_total (d : BDD m) (readSize : Nat) (rs : Nat → Nat) :
    ∃ l, randomSatisfyingInput d (countMinterms d) readSize rs = .ok l ∧ l.length = readSize :=
  randomSatLoop_total _ rs readSize 0 d.edge (fun b hb => ⟨_, countMinterms_find d hb⟩)

theorem goodLoop_bounds (d : BDD m) (readSize : Nat) (earlier : List (BDD m))
    (he : Fits readSize earlier) (rs : Nat → Nat → Nat) : ∀ k b,
    ∃ g, goodLoop d (countMinterms d) readSize earlier rs b k = .ok g ∧ g ≤ k
  | 0, _ => ⟨0, rfl, le_rfl⟩
  | k + 1, b => by
      obtain ⟨l, hl, hlen⟩ := randomSat_total d readSize (rs b)
      have ha := anyOne_spec (inp := l) earlier (by rw [hlen]; exact he)
      obtain ⟨g, hg, hle⟩ := goodLoop_bounds d readSize earlier he rs k (b + 1)
      simp only [goodLoop, hl, ha, hg, bind, Except.bind]
      exact ⟨_, rfl, by have := Bool.toNat_le (!decide (∃ b ∈ earlier, b.eval (asgOf l) = true)); omega⟩

theorem effLoop_bounds (diff : List (BDD m)) (readSize : Nat) (hN : Fits readSize diff) (samples : Int)
    (hs0 : 0 ≤ samples) (hs : samples < 2 ^ 31) (denom : ℚ) (hd : 0 < denom)
    (rs : Nat → Nat → Nat → Nat) : ∀ (acts : List (Nat × ℚ)) (i : Nat) (earlier : List (BDD m)) (rate : ℚ),
    Fits readSize earlier → (∀ p ∈ acts, p.1 < diff.length ∧ 0 ≤ p.2 ∧ p.2 ≤ denom) →
    ∃ q, effLoop diff readSize samples denom rs i earlier acts rate = .ok q ∧
      rate ≤ q ∧ q ≤ rate + (acts.map Prod.snd).sum
  | [], i, earlier, rate, _, _ => ⟨rate, rfl, le_rfl, by simp⟩
  | (idx, act) :: rest, i, earlier, rate, he, hp => by
      obtain ⟨hidx, ha0, ha1⟩ := hp (idx, act) (by simp)
      simp only at hidx ha0 ha1
      have hsq : (0 : ℚ) ≤ samples := by exact_mod_cast hs0
      have hq0 : 0 ≤ (samples : ℚ) * act / denom := div_nonneg (mul_nonneg hsq ha0) hd.le
      have hq1 : (samples : ℚ) * act / denom ≤ samples := by
        rw [div_le_iff₀ hd]
        exact mul_le_mul_of_nonneg_left ha1 hsq
      have hfl0 : 0 ≤ ⌊(samples : ℚ) * act / denom⌋ := Int.floor_nonneg.mpr hq0
      have hfl1 : ⌊(samples : ℚ) * act / denom⌋ ≤ samples := by
        have := le_trans (Int.floor_le _) hq1
        exact_mod_cast this
      have hd' : vget diff idx = .ok diff[idx] := by
        have := vget_eq diff idx diff[idx] hidx
        rwa [List.getD_eq_getElem _ _ hidx] at this
      have he' : Fits readSize (earlier ++ [diff[idx]]) := by
        intro b hb
        rcases List.mem_append.mp hb with h | h
        · exact he b h
        · rw [List.mem_singleton] at h; subst h
          exact hN _ (List.getElem_mem hidx)
      rw [effLoop, if_neg hd.ne']
      simp only [if_pos hq0]
      rw [if_neg (by omega)]
      simp only [hd', bind, Except.bind]
      split
      · obtain ⟨q, hq, h1, h2⟩ := effLoop_bounds diff readSize hN samples hs0 hs denom hd rs rest (i + 1)
          (earlier ++ [diff[idx]]) rate he' (fun p hpm => hp p (by simp [hpm]))
        exact ⟨q, hq, h1, by simp only [List.map_cons, List.sum_cons]; linarith⟩
      · rename_i hne
        obtain ⟨g, hg, hgle⟩ := goodLoop_bounds diff[idx] readSize earlier he (rs i)
          ⌊(samples : ℚ) * act / denom⌋.toNat 0
        simp only [hg]
        obtain ⟨q, hq, h1, h2⟩ := effLoop_bounds diff readSize hN samples hs0 hs denom hd rs rest (i + 1)
          (earlier ++ [diff[idx]]) (rate + act * ((g : ℚ) / ⌊(samples : ℚ) * act / denom⌋)) he'
          (fun p hpm => hp p (by simp [hpm]))
        have hpos : (0 : ℚ) < (⌊(samples : ℚ) * act / denom⌋ : ℚ) := by
          have : 0 < ⌊(samples : ℚ) * act / denom⌋ := lt_of_le_of_ne hfl0 (Ne.symm hne)
          exact_mod_cast this
        have hg0 : (0 : ℚ) ≤ (g : ℚ) / ⌊(samples : ℚ) * act / denom⌋ := div_nonneg (by positivity) hpos.le
        have hg1 : (g : ℚ) / ⌊(samples : ℚ) * act / denom⌋ ≤ 1 := by
          rw [div_le_one hpos]
          have : (g : ℤ) ≤ ⌊(samples : ℚ) * act / denom⌋ := by omega
          exact_mod_cast this
        refine ⟨q, hq, le_trans ?_ h1, le_trans h2 ?_⟩
        · have := mul_nonneg ha0 hg0; linarith
        · simp only [List.map_cons, List.sum_cons]
          have := mul_le_mul_of_nonneg_left hg1 ha0
          linarith

/-! ## Bit flips -/

theorem bitFlipSum_spec (n N : Nat) : ∀ (f g : List (BDD m)), f.length = g.length → Fits N f → Fits N g →
    bitFlipSum n f g = mean N (fun x => (hamming (bitsAt f x) (bitsAt g x) : ℚ)) * 2 ^ n
  | [], [], _, _, _ => by simp [bitFlipSum, hamming, mean_const]
  | a :: as, b :: bs, h, hf, hg => by
      have ih := bitFlipSum_spec n N as bs (by simpa using h) (fun c hc => hf c (by simp [hc]))
        (fun c hc => hg c (by simp [hc]))
      have hab : ∀ v ∈ (a.xor b).supportIndices, v < N :=
        fits_xorDiff [a] [b] (fun c hc => hf c (by simp_all)) (fun c hc => hg c (by simp_all))
          (a.xor b) (by simp [xorDiff])
      rw [bitFlipSum, ih, BDD.countMinterm, BDD.frac_eq_mean N _ hab, ← add_mul, ← mean_add]
      congr 1
      apply mean_congr
      intro x
      rw [BDD.eval_xor, ind_toNat, bitsAt_cons, bitsAt_cons, hamming]
      push_cast
      rfl
  | [], b :: bs, h, _, _ => by simp at h
  | a :: as, [], h, _, _ => by simp at h

end Verif

import Verif.Model.FloatBenchmark
import Verif.Props.FloatExperiments
import Verif.Props.FloatRelative
import Verif.Props.FloatAdd
import Verif.Props.Benchmark

/-!
# Lemmas for `compute_error_metric` with `double`s
-/

namespace Verif

variable {m : Mgr} {rnd dec cv lg : ℚ → ℚ}

theorem near_trans {q v t δ ε : ℚ} (hδ : 0 ≤ δ) (h1 : |q - v| ≤ δ * v) (h2 : |v - t| ≤ ε * t) :
    |q - t| ≤ (δ + ε + δ * ε) * t := by
  have e : q - t = (q - v) + (v - t) := by ring
  have h3 := mul_le_mul_of_nonneg_left (abs_le.mp h2).2 hδ
  rw [e]
  refine (abs_add_le _ _).trans ?_
  linarith

/-- A number that is almost between two bounds is near a number between them. -/
theorem near_clamp {q a b η : ℚ} (ha : 0 ≤ a) (hab : a ≤ b) (hη : 0 ≤ η) (h1 : (1 - η) * a ≤ q) (h2 : q ≤ (1 + η) * b) :
    ∃ t, a ≤ t ∧ t ≤ b ∧ |q - t| ≤ η * t := by
  rcases le_total q a with h | h
  · refine ⟨a, le_rfl, hab, abs_le.mpr ⟨by linarith, ?_⟩⟩
    have := mul_nonneg hη ha
    linarith
  · rcases le_total q b with h' | h'
    · refine ⟨q, h, h', ?_⟩
      rw [sub_self, abs_zero]
      exact mul_nonneg hη (ha.trans h)
    · refine ⟨b, hab, le_rfl, abs_le.mpr ⟨?_, by linarith⟩⟩
      have := mul_nonneg hη (ha.trans hab)
      linarith

/-- The conversion to `double` of any number that is not too large. -/
theorem DecToDouble.near_abs (hr : Nearest rnd) (hc : DecToDouble rnd cv) {v : ℚ} (h0 : 0 ≤ v) (hb : v ≤ 2 ^ 600) :
    0 ≤ cv v ∧ |cv v - v| ≤ 1 / 10 ^ 20 + 1 / 2 ^ 52 * v := by
  have hz : (0 : ℚ) ≤ 1 / 10 ^ 20 := by positivity
  rcases le_or_gt (1 / 2 ^ 600) v with h | h
  · obtain ⟨h1, h2⟩ := hc.near hr (.inr h) hb
    exact ⟨h1, by linarith⟩
  · obtain ⟨q', c1, c2⟩ := hc.conv v (by rw [abs_of_nonneg h0]; exact hb.trans (pow_le_big (by norm_num)))
    rw [abs_of_nonneg h0] at c1
    have c1' := abs_le.mp c1
    have hq0 : 0 ≤ q' := by linarith only [c1'.1, h0]
    have hq1 : q' ≤ 2 * v := by linarith only [c1'.2, h0]
    have hv1 : v ≤ 1 / 2 ^ 100 := h.le.trans (one_div_le_one_div_of_le (by positivity) (pow_le_big (by norm_num)))
    have hs : (1 : ℚ) / 2 ^ 100 ≤ 1 / (10 * 10 ^ 20) := by norm_num
    have hs' : (1 : ℚ) / (10 * 10 ^ 20) = 1 / 10 * (1 / 10 ^ 20) := by rw [one_div_mul_one_div]
    have hbig : q' ≤ 2 ^ 1023 := by
      have : q' ≤ 2 := by
        have : (1 : ℚ) / 2 ^ 100 ≤ 1 := by norm_num
        linarith only [this, hq1, hv1]
      exact this.trans two_le_big
    have hn := hr.near q' 0 (by rwa [abs_of_nonneg hq0]) isDouble_zero
    rw [zero_sub, abs_neg, abs_of_nonneg hq0] at hn
    have hn' := abs_le.mp hn
    rw [c2]
    have hp : (0 : ℚ) ≤ 1 / 2 ^ 52 * v := mul_nonneg (by norm_num) h0
    refine ⟨by linarith only [hn'.1], abs_le.mpr ⟨?_, ?_⟩⟩
    · linarith only [hn'.1, hv1, hs, hs', hp, h0]
    · linarith only [hn'.2, hq1, hv1, hs, hs', hp, h0]

/-- The middle of two bounds on `w`, of which the upper one is about at most twice the lower one. -/
theorem middleF_near (hr : Nearest rnd) (hd : Dec100 dec) (hc : DecToDouble rnd cv) {lo hi w a b : ℚ} (hw : 0 ≤ w)
    (hw' : w = 0 ∨ 1 / 2 ^ 512 ≤ w) (hwb : w ≤ 2 ^ 512) (ha : a ≤ 1 / 2 ^ 43) (hb : b ≤ 1 / 2 ^ 43)
    (h1 : lo ≤ (1 + a) * w) (h2 : (1 - b) * w ≤ hi) (h3 : hi ≤ (2 + 1 / 2 ^ 40) * lo) :
    ∃ t, 3 / 4 * w ≤ t ∧ t ≤ 3 / 2 * w ∧ 0 ≤ middleF dec cv (lo, hi) ∧ |middleF dec cv (lo, hi) - t| ≤ 1 / 2 ^ 39 * t := by
  have h1' : lo ≤ (1 + 1 / 2 ^ 43) * w := h1.trans (mul_le_mul_of_nonneg_right (by linarith) hw)
  have h2' : (1 - 1 / 2 ^ 43) * w ≤ hi := le_trans (mul_le_mul_of_nonneg_right (by linarith) hw) h2
  have hup : (lo + hi) / 2 ≤ (1 + 1 / 2 ^ 41) * (3 / 2 * w) := by
    norm_num at h1' h3 ⊢
    linarith
  have hdn : (1 - 1 / 2 ^ 41) * (3 / 4 * w) ≤ (lo + hi) / 2 := by
    norm_num at h2' h3 ⊢
    linarith
  obtain ⟨t, t1, t2, t3⟩ := near_clamp (by linarith) (by linarith) (by norm_num) hdn hup
  have ht : 0 ≤ t := by linarith
  have n1 : |lo + hi - 2 * t| ≤ 1 / 2 ^ 41 * (2 * t) := by
    have : lo + hi - 2 * t = 2 * ((lo + hi) / 2 - t) := by ring
    rw [this, abs_mul, abs_two]
    linarith
  obtain ⟨n2, -⟩ := near_dec hd (by linarith) (by norm_num) n1
  have n3 : |dec (lo + hi) / 2 - t| ≤ (1 / 2 ^ 41 + 2 / 10 ^ 99) * t := by
    have : dec (lo + hi) / 2 - t = (dec (lo + hi) - 2 * t) / 2 := by ring
    rw [this, abs_div, abs_two]
    linarith
  obtain ⟨n4, n5⟩ := near_dec hd ht (by norm_num) n3
  have n6 : |dec (dec (lo + hi) / 2) - t| ≤ 1 / 2 ^ 40 * t := near_mono ht (by norm_num) n4
  have n6' := abs_le.mp n6
  have hv1 : dec (dec (lo + hi) / 2) ≤ 2 * t := by linarith only [n6'.2, ht]
  have hv2 : 1 / 2 * t ≤ dec (dec (lo + hi) / 2) := by linarith only [n6'.1, ht]
  obtain ⟨n7, n8⟩ := hc.near hr (v := dec (dec (lo + hi) / 2)) (by
    rcases hw' with h | h
    · left
      have : t = 0 := by rw [h] at t1 t2; linarith
      rw [this] at hv1 hv2
      linarith
    · right
      have h5 : (1 : ℚ) / 2 ^ 512 * (1 / 2 ^ 2) ≤ dec (dec (lo + hi) / 2) := by
        have : w * (1 / 2 ^ 2) ≤ dec (dec (lo + hi) / 2) := by
          norm_num
          linarith
        exact (mul_le_mul_of_nonneg_right h (by norm_num)).trans this
      refine le_trans ?_ h5
      rw [one_div_mul_one_div, ← pow_add]
      exact one_div_le_one_div_of_le (pow_pos (by norm_num) _) (pow_le_big (by norm_num))) (by
    calc dec (dec (lo + hi) / 2) ≤ 2 * t := hv1
      _ ≤ w * 2 ^ 2 := by linarith
      _ ≤ 2 ^ 512 * 2 ^ 2 := mul_le_mul_of_nonneg_right hwb (by norm_num)
      _ = 2 ^ 514 := by rw [← pow_add]
      _ ≤ 2 ^ 600 := pow_le_big (by norm_num))
  exact ⟨t, t1, t2, n7, near_mono ht (by norm_num) (near_trans (by norm_num) n8 n6)⟩

/-! ## Sizes of relative errors -/

theorem relErrAt_eq (f g : List (BDD m)) (x : Asg) : relErrAt .baseTwo f g x = absErrAt f g x / max 1 (uAt f x : ℚ) := by
  simp only [relErrAt, absErrAt, valAt]
  rw [abs_of_nonneg (by positivity : (0 : Int) ≤ uAt f x)]
  push_cast
  rfl

theorem relErrAt_ge (f g : List (BDD m)) (x : Asg) : absErrAt f g x / 2 ^ f.length ≤ relErrAt .baseTwo f g x := by
  have h0 : 0 ≤ absErrAt f g x := by
    unfold absErrAt
    exact_mod_cast abs_nonneg _
  have h1 : (uAt f x : ℚ) ≤ 2 ^ f.length := by exact_mod_cast (uAt_lt f x).le
  rw [relErrAt_eq]
  exact div_le_div_of_nonneg_left h0 (by positivity) (max_le (one_le_pow₀ (by norm_num)) h1)

theorem relErrAt_le (f g : List (BDD m)) (x : Asg) : relErrAt .baseTwo f g x ≤ absErrAt f g x := by
  have h0 : 0 ≤ absErrAt f g x := by
    unfold absErrAt
    exact_mod_cast abs_nonneg _
  rw [relErrAt_eq]
  exact div_le_self h0 (le_max_left _ _)

theorem relErrAt_nn (f g : List (BDD m)) (x : Asg) : 0 ≤ relErrAt .baseTwo f g x := by
  refine le_trans (div_nonneg ?_ (by positivity)) (relErrAt_ge f g x)
  unfold absErrAt
  exact_mod_cast abs_nonneg _

theorem max_relErr_range {f g : List (BDD m)} (hl : f.length = g.length) {w : ℚ} (hw : IsMax (relErrAt .baseTwo f g) w) :
    0 ≤ w ∧ (w = 0 ∨ 1 / 2 ^ f.length ≤ w) ∧ w ≤ 2 ^ f.length := by
  obtain ⟨⟨x, rfl⟩, -⟩ := hw
  have h := absErrAt_range hl x
  refine ⟨relErrAt_nn f g x, ?_, (relErrAt_le f g x).trans (h.2.trans (by linarith))⟩
  have hi : absErrAt f g x = 0 ∨ 1 ≤ absErrAt f g x := by
    unfold absErrAt
    have := abs_nonneg ((uAt f x : Int) - uAt g x)
    rcases this.eq_or_lt with h | h
    · left
      rw [← h]
      simp
    · right
      exact_mod_cast h
  rcases hi with h0 | h1
  · left
    rw [relErrAt_eq, h0, zero_div]
  · right
    exact (div_le_div_of_nonneg_right h1 (by positivity)).trans (relErrAt_ge f g x)

theorem mean_relErr_range {f g : List (BDD m)} (hl : f.length = g.length) (N : Nat) :
    0 ≤ mean N (relErrAt .baseTwo f g) ∧
      (mean N (relErrAt .baseTwo f g) = 0 ∨ 1 / 2 ^ (N + f.length) ≤ mean N (relErrAt .baseTwo f g)) ∧
      mean N (relErrAt .baseTwo f g) ≤ 2 ^ f.length := by
  have h0 := mean_nonneg N (relErrAt_nn f g)
  have hup := mean_mono N (relErrAt_le f g)
  have hdn := mean_mono N (relErrAt_ge f g)
  obtain ⟨j, hj⟩ := mean_absErrAt N f g
  refine ⟨h0, ?_, hup.trans ?_⟩
  · rcases Nat.eq_zero_or_pos j with rfl | hj0
    · left
      rw [hj] at hup
      simp at hup
      exact le_antisymm hup h0
    · right
      refine le_trans ?_ hdn
      have e : (fun x => absErrAt f g x / 2 ^ f.length) = fun x => 1 / 2 ^ f.length * absErrAt f g x := by
        funext x
        ring
      rw [e, mean_mul_left, hj, pow_add]
      have h1 : (1 : ℚ) ≤ j := by exact_mod_cast hj0
      have : (1 : ℚ) / (2 ^ N * 2 ^ f.length) = 1 / 2 ^ f.length * (1 / 2 ^ N) := by field_simp
      rw [this]
      exact mul_le_mul_of_nonneg_left (div_le_div_of_nonneg_right h1 (by positivity)) (by positivity)
  · have := mean_mono N (g := absErrAt f g) (h := fun _ => (2 : ℚ) ^ f.length) (fun x =>
      (absErrAt_range hl x).2.trans (by linarith))
    rwa [mean_const] at this

/-! ## The quotient of the randomised search -/

theorem toLong_lt (n : Nat) : toLong n < 2 ^ 63 := by
  unfold toLong
  omega

theorem doubleCounterF_lt (d f : List (BDD m)) : ∀ (fuel c : Nat) (r : Nat × Nat),
    doubleCounterF rnd lg d f fuel c = .ok (.inl r) → r.1 < 2 ^ 63 ∧ r.2 < 2 ^ 63 := by
  intro fuel
  induction fuel with
  | zero => intro c r h; cases h
  | succ fuel ih =>
    intro c r h
    simp only [doubleCounterF, bind, Except.bind] at h
    split at h
    · cases h
    · split at h
      · obtain rfl := Sum.inl.inj (Except.ok.inj h)
        exact ⟨toLong_lt _, by norm_num⟩
      · split at h
        · cases h
        · exact ih _ _ h

theorem doubleDenominatorF_lt (d f : List (BDD m)) : ∀ (fuel c : Nat) (r : Nat × Nat),
    doubleDenominatorF rnd lg d f fuel c = .ok (.inl r) → r.1 < 2 ^ 63 ∧ r.2 < 2 ^ 63 := by
  intro fuel
  induction fuel with
  | zero => intro c r h; cases h
  | succ fuel ih =>
    intro c r h
    simp only [doubleDenominatorF, bind, Except.bind] at h
    split at h
    · cases h
    · split at h
      · obtain rfl := Sum.inl.inj (Except.ok.inj h)
        exact ⟨by norm_num, toLong_lt _⟩
      · split at h
        · cases h
        · exact ih _ _ h

theorem randomizedLoopF_lt (d f : List (BDD m)) (lg' : BDD m) (n samples : Nat) (rs : Nat → Nat → Nat → Nat) :
    ∀ (fuel j : Nat) (cd r : Nat × Nat), randomizedLoopF rnd lg d f lg' n samples rs fuel j cd = .ok r →
      r.1 < 2 ^ 63 ∧ r.2 < 2 ^ 63 := by
  intro fuel
  induction fuel with
  | zero => intro j cd r h; cases h
  | succ fuel ih =>
    intro j cd r h
    simp only [randomizedLoopF, bind, Except.bind] at h
    split at h
    · cases h
    · split at h
      · cases h
      · split at h
        · obtain rfl := Except.ok.inj h
          exact ⟨toLong_lt _, toLong_lt _⟩
        · split at h
          · cases h
          · exact ih _ _ _ h

theorem randomizedSearchF_lt (d f : List (BDD m)) (n samples : Nat) (rs : Nat → Nat → Nat → Nat) (fuel : Nat)
    (r : Nat × Nat) (h : randomizedSearchF rnd lg d f n samples rs fuel = .ok r) : r.1 < 2 ^ 63 ∧ r.2 < 2 ^ 63 := by
  unfold randomizedSearchF at h
  split at h
  · obtain rfl := Except.ok.inj h
    norm_num
  · simp only [bind, Except.bind] at h
    split at h
    · cases h
    · split at h
      · obtain rfl := Except.ok.inj h
        norm_num
      · split at h
        · split at h
          · cases h
          · rename_i v hv
            split at h
            · obtain rfl := Except.ok.inj h
              exact doubleCounterF_lt d f _ _ _ hv
            · split at h
              · cases h
              · split at h
                · cases h
                · exact randomizedLoopF_lt d f _ _ _ _ _ _ _ _ h
        · split at h
          · cases h
          · rename_i v hv
            split at h
            · obtain rfl := Except.ok.inj h
              exact doubleDenominatorF_lt d f _ _ _ hv
            · split at h
              · cases h
              · split at h
                · cases h
                · exact randomizedLoopF_lt d f _ _ _ _ _ _ _ _ h

theorem wcreRandomizedSearchF_lt (r : NumRep) (f g : List (BDD m)) (n samples : Nat) (rs : Nat → Nat → Nat → Nat)
    (fuel c e : Nat) (h : wcreRandomizedSearchF rnd lg r f g n samples rs fuel = .ok (c, e)) : c < 2 ^ 63 ∧ e < 2 ^ 63 := by
  simp only [wcreRandomizedSearchF, bind, Except.bind] at h
  split at h
  · cases h
  · split at h
    · cases h
    · split at h
      · cases h
      · exact randomizedSearchF_lt _ _ _ _ _ _ _ h

/-- The quotient of two converted integers. -/
theorem quotient_near (hr : Nearest rnd) {c e : Nat} (he : 0 < e) (hc : c < 2 ^ 63) (he' : e < 2 ^ 63) :
    ∃ q, fdiv (rnd c) (rnd e) = .ok q ∧ 0 ≤ rnd q ∧ |rnd q - (c / e : ℚ)| ≤ 1 / 2 ^ 51 * (c / e : ℚ) := by
  have hE : (0 : ℚ) < e := by exact_mod_cast he
  have n1 := hr.nat_near c (by omega)
  have n2 := hr.nat_near e (by omega)
  rw [mul_comm] at n1 n2
  obtain ⟨p, n3⟩ := near_div (Nat.cast_nonneg c) (by norm_num) hE (by norm_num) (by norm_num) n1 n2
  have hq0 : (0 : ℚ) ≤ c / e := by positivity
  refine ⟨rnd c / rnd e, by rw [fdiv, if_neg p.ne'], ?_⟩
  have n3' := abs_le.mp n3
  rcases Nat.eq_zero_or_pos c with rfl | hc0
  · have z := hr.nat53 0 (by norm_num)
    rw [z]
    simp only [Nat.cast_zero, zero_div]
    have z' : rnd 0 = 0 := by simpa using z
    rw [z']
    simp
  · have hC : (1 : ℚ) ≤ c := by exact_mod_cast hc0
    have hEb : (e : ℚ) ≤ 2 ^ 63 := by exact_mod_cast he'.le
    have hCb : (c : ℚ) ≤ 2 ^ 63 := by exact_mod_cast hc.le
    have hE1 : (1 : ℚ) ≤ e := by exact_mod_cast he
    have lo : (1 : ℚ) / 2 ^ 63 ≤ c / e := by
      rw [div_le_div_iff₀ (by positivity) hE]
      nlinarith
    have hi : (c : ℚ) / e ≤ 2 ^ 63 := (div_le_self (by positivity) hE1).trans hCb
    set t : ℚ := c / e with ht
    set q := rnd c / rnd e with hq
    have q1 : q ≤ 2 ^ 64 := by
      norm_num at n3' hi ⊢
      linarith
    have q2 : 1 / 2 ^ 64 ≤ q := by
      norm_num at n3' lo ⊢
      linarith
    have n4 := hr.rel (q := q) (le_trans (one_div_le_one_div_of_le (pow_pos (by norm_num) _)
      (pow_le_big (by norm_num))) q2) (q1.trans (pow_le_big (by norm_num)))
    have q0 : 0 ≤ q := le_trans (by positivity) q2
    refine ⟨hr.nonneg q0 (q1.trans (pow_le_big (by norm_num))), ?_⟩
    rw [mul_comm] at n4
    exact near_mono hq0 (by norm_num) (near_trans (by norm_num) n4 n3)

end Verif

import Verif.Model.FloatMetrics
import Verif.Proofs.FloatOps
import Verif.Proofs.ErrorRate

/-!
# Lemmas about the metrics with rounded counts
-/

namespace Verif

variable {m : Mgr} {rnd dec : ℚ → ℚ}

/-! ### Doubles -/

theorem isDouble_zpow (k : Nat) (e : ℤ) (hk : k ≤ 2 ^ 53) (h1 : -1074 ≤ e) (h2 : e ≤ 970) :
    IsDouble ((k : ℚ) * 2 ^ e) :=
  ⟨k, e, by rw [Nat.abs_cast]; exact_mod_cast hk, h1, h2, by norm_num⟩

theorem isDouble_two_pow {n : Nat} (hn : n ≤ 1000) : IsDouble ((2 : ℚ) ^ n) := by
  by_cases h : n ≤ 900
  · have := isDouble_zpow 1 n (by norm_num) (by omega) (by omega)
    simpa using this
  · have := isDouble_zpow (2 ^ 53) ((n - 53 : Nat) : ℤ) le_rfl (by omega) (by omega)
    rw [zpow_natCast, Nat.cast_pow, Nat.cast_ofNat, ← pow_add, show 53 + (n - 53) = n by omega] at this
    exact this

theorem Nearest.le_double (h : Nearest rnd) {q d : ℚ} (h0 : 0 ≤ q) (hd : IsDouble d) (hqd : q ≤ d) (hb : q ≤ 2 ^ 1023) :
    rnd q ≤ d := by
  have := h.near q d (by rwa [abs_of_nonneg h0]) hd
  rw [abs_of_nonneg (by linarith : (0 : ℚ) ≤ d - q), abs_le] at this
  linarith

theorem Nearest.double_le (h : Nearest rnd) {q d : ℚ} (h0 : 0 ≤ q) (hd : IsDouble d) (hqd : d ≤ q) (hb : q ≤ 2 ^ 1023) :
    d ≤ rnd q := by
  have := h.near q d (by rwa [abs_of_nonneg h0]) hd
  rw [abs_of_nonpos (by linarith : d - q ≤ 0), abs_le] at this
  linarith

theorem two_pow_le_big {n k : Nat} (h : n ≤ k) : (2 : ℚ) ^ n ≤ 2 ^ k := pow_le_pow_right₀ (by norm_num) h

theorem isDouble_half_of_le {d : ℚ} {n : Nat} (hd : IsDouble d) (h1 : d ≤ 2 ^ n) (h0 : 0 ≤ d) (hn : n ≤ 1000) (h : d = 0 ∨ 1 / 2 ^ 1021 ≤ d) :
    IsDouble (d / 2) ∧ d / 2 ≤ 2 ^ 1023 := by
  refine ⟨?_, ?_⟩
  · rcases h with rfl | h
    · simpa using isDouble_zero
    · exact isDouble_half hd h
  · exact (by linarith : d / 2 ≤ 2 ^ n).trans (two_pow_le_big (by omega))

/-- Dividing a `double` by a power of two is exact unless the result is very small. -/
theorem isDouble_div_pow {q : ℚ} (hq : IsDouble q) (n : Nat) (h : q = 0 ∨ 1 / 2 ^ 1021 ≤ q / 2 ^ n) :
    IsDouble (q / 2 ^ n) := by
  induction n with
  | zero => simpa using hq
  | succ n ih =>
    rcases h with rfl | h
    · simpa using isDouble_zero
    · have hp : (0 : ℚ) < 1 / 2 ^ 1021 := by positivity
      have e : q / 2 ^ (n + 1) = q / 2 ^ n / 2 := by rw [pow_succ, div_div]
      rw [e] at h ⊢
      have h' : 1 / 2 ^ 1021 ≤ q / 2 ^ n := by
        generalize (1 : ℚ) / 2 ^ 1021 = z at h hp
        linarith
      exact isDouble_half (ih (.inr h')) h'

/-! ### Counts -/

theorem cntF_node (full : ℚ) (neg c : Bool) (v : Nat) (t e : DD) : cntF rnd full (.node v t c e) neg =
    rnd (rnd (cntF rnd full t neg / 2) + rnd (cntF rnd full e (neg ^^ c) / 2)) := rfl

theorem cntF_range (h : Nearest rnd) {n : Nat} (hn : n ≤ 1000) (d : DD) (neg : Bool) :
    IsDouble (cntF rnd (2 ^ n) d neg) ∧ 0 ≤ cntF rnd (2 ^ n) d neg ∧ cntF rnd (2 ^ n) d neg ≤ 2 ^ n := by
  have big := two_pow_le_big (show n ≤ 1023 by omega)
  induction d generalizing neg with
  | one =>
    have h2 := isDouble_two_pow hn
    cases neg <;> simp [cntF, isDouble_zero, h2]
  | node v t c e iht ihe =>
    obtain ⟨-, t0, t1⟩ := iht neg
    obtain ⟨-, e0, e1⟩ := ihe (neg ^^ c)
    rw [cntF_node]
    have hhalf : IsDouble ((2 : ℚ) ^ n / 2) := by
      refine isDouble_half (isDouble_two_pow hn) ?_
      have h1 : (1 : ℚ) ≤ 2 ^ n := one_le_pow₀ (by norm_num)
      have h2 : (1 : ℚ) / 2 ^ 1021 ≤ 1 := by
        rw [div_le_one (by positivity)]
        exact one_le_pow₀ (by norm_num)
      exact h2.trans h1
    have key : ∀ F : ℚ, 0 ≤ F → F ≤ 2 ^ n → 0 ≤ rnd (F / 2) ∧ rnd (F / 2) ≤ 2 ^ n / 2 := fun F h0 h1 =>
      have hb := (by linarith : F / 2 ≤ 2 ^ n).trans big
      ⟨h.nonneg (by linarith) hb, h.le_double (by linarith) hhalf (by linarith) hb⟩
    obtain ⟨a0, a1⟩ := key _ t0 t1
    obtain ⟨b0, b1⟩ := key _ e0 e1
    have hb := (by linarith : rnd (cntF rnd (2 ^ n) t neg / 2) + rnd (cntF rnd (2 ^ n) e (neg ^^ c) / 2) ≤ 2 ^ n).trans big
    refine ⟨h.isDouble _ ?_, h.nonneg (by linarith) hb, h.le_double (by linarith) (isDouble_two_pow hn) (by linarith) hb⟩
    rwa [abs_of_nonneg (by linarith)]

/-- The relative error of a count grows by at most one unit per level. -/
theorem cntF_rel (h : Nearest rnd) {n : Nat} (hn : n ≤ 1000) (d : DD) (neg : Bool) (hwf : d.WF m) (hh : d.height ≤ 1000) :
    Edge.frac ⟨neg, d⟩ * 2 ^ n * (1 - d.height * (1 / 2 ^ 53)) ≤ cntF rnd (2 ^ n) d neg ∧
      cntF rnd (2 ^ n) d neg ≤ Edge.frac ⟨neg, d⟩ * 2 ^ n * (1 + d.height * (1 / 2 ^ 52)) := by
  induction d generalizing neg with
  | one => cases neg <;> simp [cntF, Edge.frac, DD.frac, DD.height]
  | node v t c e iht ihe =>
    simp only [DD.height] at hh ⊢
    set H := max t.height e.height with hH
    have hw : H ≤ 999 := by omega
    obtain ⟨t1, t2⟩ := iht neg hwf.1 (by omega)
    obtain ⟨e1, e2⟩ := ihe (neg ^^ c) hwf.2.1 (by omega)
    obtain ⟨td, t0, t1'⟩ := cntF_range h hn t neg
    obtain ⟨ed, e0, e1'⟩ := cntF_range h hn e (neg ^^ c)
    have hp : (1 : ℚ) ≤ 2 ^ n := one_le_pow₀ (by norm_num)
    have scale : ∀ {a : Edge}, a.n.WF m → 0 ≤ a.frac * 2 ^ n ∧ (a.frac * 2 ^ n ≠ 0 → 1 / 2 ^ a.n.height ≤ a.frac * 2 ^ n) := by
      intro a ha
      have hb := frac_bounds (m := m) (a := a) ha
      refine ⟨mul_nonneg hb.1 (by linarith), fun hne => ?_⟩
      have := frac_ge (d := a.n) (neg := a.neg) (fun h0 => hne (by rw [h0, zero_mul]))
      refine this.trans ?_
      exact le_mul_of_one_le_right hb.1 hp
    have tb := scale (a := ⟨neg, t⟩) hwf.1
    have eb := scale (a := ⟨neg ^^ c, e⟩) hwf.2.1
    rw [cntF_node, frac_node]
    obtain ⟨u, hu⟩ : ∃ u : ℚ, u = 1 / 2 ^ 53 := ⟨_, rfl⟩
    have hu2 : (1 : ℚ) / 2 ^ 52 = 2 * u := by rw [hu, pow_succ]; field_simp
    have hu0 : 0 < u := by rw [hu]; positivity
    have hus : 2048 * u ≤ 1 := by rw [hu]; norm_num
    rw [hu2] at t2 e2 ⊢
    rw [← hu] at t1 e1 ⊢
    have hHq : (H : ℚ) ≤ 999 := by exact_mod_cast hw
    have htH : (t.height : ℚ) ≤ H := by exact_mod_cast le_max_left _ _
    have heH : (e.height : ℚ) ≤ H := by exact_mod_cast le_max_right _ _
    have small : ∀ {F c : ℚ} {k : Nat}, k ≤ H → 0 ≤ c → (c ≠ 0 → 1 / 2 ^ k ≤ c) → c * (1 - k * u) ≤ F →
        F ≤ c * (1 + k * (2 * u)) → F = 0 ∨ 1 / 2 ^ 1021 ≤ F := by
      intro F c k hk hc0 hc h1 h2
      by_cases hz : c = 0
      · rw [hz, zero_mul] at h1 h2
        exact .inl (le_antisymm h2 h1)
      · right
        have hkq : (k : ℚ) ≤ H := by exact_mod_cast hk
        have h3 := hc hz
        have h4 : (1 : ℚ) / 2 ≤ 1 - k * u := by nlinarith
        have h5 : (1 : ℚ) / 2 ^ 1020 ≤ 1 / 2 ^ k :=
          one_div_le_one_div_of_le (by positivity) (pow_le_pow_right₀ (by norm_num) (by omega))
        calc (1 : ℚ) / 2 ^ 1021 = 1 / 2 ^ 1020 * (1 / 2) := by rw [pow_succ]; field_simp
          _ ≤ c * (1 - k * u) := mul_le_mul (h5.trans h3) h4 (by norm_num) hc0
          _ ≤ F := h1
    have ts := small (le_max_left _ _) tb.1 tb.2 t1 t2
    have es := small (le_max_right _ _) eb.1 eb.2 e1 e2
    have hhalf : ∀ {F : ℚ}, IsDouble F → 0 ≤ F → F = 0 ∨ 1 / 2 ^ 1021 ≤ F → F ≤ 2 ^ n → rnd (F / 2) = F / 2 := by
      intro F hd h0 hF h1
      obtain ⟨d1, d2⟩ := isDouble_half_of_le hd h1 h0 hn hF
      exact h.exact d1 (by rwa [abs_of_nonneg (by linarith)])
    rw [hhalf td t0 ts t1', hhalf ed e0 es e1']
    set T := cntF rnd (2 ^ n) t neg
    set E := cntF rnd (2 ^ n) e (neg ^^ c)
    rw [show (Edge.frac ⟨neg, t⟩ + Edge.frac ⟨neg ^^ c, e⟩) / 2 * 2 ^ n =
      (Edge.frac ⟨neg, t⟩ * 2 ^ n + Edge.frac ⟨neg ^^ c, e⟩ * 2 ^ n) / 2 by ring]
    set a := Edge.frac ⟨neg, t⟩ * 2 ^ n
    set b := Edge.frac ⟨neg ^^ c, e⟩ * 2 ^ n
    have hsum : |rnd (T / 2 + E / 2) - (T / 2 + E / 2)| ≤ (T / 2 + E / 2) * u := by
      by_cases hz : T = 0 ∧ E = 0
      · rw [hz.1, hz.2]
        simp only [zero_div, add_zero, zero_mul]
        rw [h.exact' isDouble_zero le_rfl (by norm_num)]
        simp
      · rw [hu]
        refine h.rel ?_ (le_trans (by linarith : T / 2 + E / 2 ≤ 2 ^ n) (two_pow_le_big (by omega)))
        have e3 : (1 : ℚ) / 2 ^ 1022 = 1 / 2 ^ 1021 / 2 := by rw [pow_succ]; field_simp
        rw [e3]
        rcases ts with ts | ts
        · rcases es with es | es
          · exact absurd ⟨ts, es⟩ hz
          · linarith
        · linarith
    rw [abs_le] at hsum
    push_cast
    have A1 : a * (1 - H * u) ≤ T := by
      refine le_trans ?_ t1
      apply mul_le_mul_of_nonneg_left _ tb.1
      nlinarith
    have B1 : b * (1 - H * u) ≤ E := by
      refine le_trans ?_ e1
      apply mul_le_mul_of_nonneg_left _ eb.1
      nlinarith
    have A2 : T ≤ a * (1 + H * (2 * u)) := by
      refine t2.trans ?_
      apply mul_le_mul_of_nonneg_left _ tb.1
      nlinarith
    have B2 : E ≤ b * (1 + H * (2 * u)) := by
      refine e2.trans ?_
      apply mul_le_mul_of_nonneg_left _ eb.1
      nlinarith
    have hab : 0 ≤ (a + b) / 2 := by linarith [tb.1, eb.1]
    have hu1 : u ≤ 1 := by linarith
    have hHu : 0 ≤ (H : ℚ) * (u * u) := by positivity
    constructor
    · calc (a + b) / 2 * (1 - (H + 1) * u) ≤ (a + b) / 2 * ((1 - H * u) * (1 - u)) := by
            apply mul_le_mul_of_nonneg_left _ hab
            linarith [hHu, (by ring : (1 - (H : ℚ) * u) * (1 - u) = 1 - (H + 1) * u + H * (u * u))]
        _ = (a * (1 - H * u) / 2 + b * (1 - H * u) / 2) * (1 - u) := by ring
        _ ≤ (T / 2 + E / 2) * (1 - u) := by
            apply mul_le_mul_of_nonneg_right _ (by linarith)
            linarith
        _ ≤ rnd (T / 2 + E / 2) := by linarith [hsum.1, (by ring : (T / 2 + E / 2) * (1 - u) = T / 2 + E / 2 - (T / 2 + E / 2) * u)]
    · have hHu2 : (H : ℚ) * (2 * u) ≤ 1 := by nlinarith
      calc rnd (T / 2 + E / 2) ≤ (T / 2 + E / 2) * (1 + u) := by
            linarith [hsum.2, (by ring : (T / 2 + E / 2) * (1 + u) = T / 2 + E / 2 + (T / 2 + E / 2) * u)]
        _ ≤ (a * (1 + H * (2 * u)) / 2 + b * (1 + H * (2 * u)) / 2) * (1 + u) := by
            apply mul_le_mul_of_nonneg_right _ (by linarith)
            linarith
        _ = (a + b) / 2 * ((1 + H * (2 * u)) * (1 + u)) := by ring
        _ ≤ (a + b) / 2 * (1 + (H + 1) * (2 * u)) := by
            apply mul_le_mul_of_nonneg_left _ hab
            have : (H : ℚ) * (2 * u) * u ≤ 1 * u := mul_le_mul_of_nonneg_right hHu2 hu0.le
            linarith [(by ring : (1 + (H : ℚ) * (2 * u)) * (1 + u) = 1 + H * (2 * u) + u + H * (2 * u) * u)]

/-- Up to 53 levels nothing is rounded. -/
theorem cntF_exact (h : Nearest rnd) {n : Nat} (hn : n ≤ 1000) (d : DD) (neg : Bool) (hh : d.height ≤ 53) :
    cntF rnd (2 ^ n) d neg = Edge.frac ⟨neg, d⟩ * 2 ^ n := by
  induction d generalizing neg with
  | one => cases neg <;> simp [cntF, Edge.frac, DD.frac]
  | node v t c e iht ihe =>
    simp only [DD.height] at hh
    rw [cntF_node, iht neg (by omega), ihe (neg ^^ c) (by omega), frac_node]
    obtain ⟨k, hk, e1⟩ := frac_dyadic t neg (h := 52) (by omega)
    obtain ⟨l, hl, e2⟩ := frac_dyadic e (neg ^^ c) (h := 52) (by omega)
    rw [e1, e2]
    have conv : ∀ k : Nat, (k : ℚ) / 2 ^ 52 * 2 ^ n / 2 = k * 2 ^ ((n : ℤ) - 53) := fun k => by
      rw [zpow_sub₀ (by norm_num), zpow_natCast]
      norm_num
      ring
    have hd : ∀ k : Nat, k ≤ 2 ^ 53 → rnd ((k : ℚ) * 2 ^ ((n : ℤ) - 53)) = k * 2 ^ ((n : ℤ) - 53) := fun k hk => by
      have h0 : (0 : ℚ) < 2 ^ ((n : ℤ) - 53) := zpow_pos (by norm_num) _
      refine h.exact (isDouble_zpow k _ hk (by omega) (by omega)) ?_
      rw [abs_of_nonneg (by positivity)]
      have hk' : (k : ℚ) ≤ 2 ^ 53 := by exact_mod_cast hk
      calc (k : ℚ) * 2 ^ ((n : ℤ) - 53) ≤ 2 ^ 53 * 2 ^ ((n : ℤ) - 53) := by gcongr
        _ = 2 ^ n := by
          rw [show ((2 : ℚ) ^ 53) = 2 ^ (53 : ℤ) by norm_num, ← zpow_add₀ (by norm_num), ← zpow_natCast]
          congr 1
          ring
        _ ≤ 2 ^ 1023 := two_pow_le_big (by omega)
    rw [conv, conv, hd k (by omega), hd l (by omega), ← add_mul]
    have := hd (k + l) (by omega)
    push_cast at this
    rw [this, add_mul, ← conv, ← conv]
    ring

theorem isDouble_mul_pow (k j : Nat) (hk : k ≤ 2 ^ 53) (hj : j ≤ 970) : IsDouble ((k : ℚ) * 2 ^ j) := by
  have := isDouble_zpow k j hk (by omega) (by omega)
  rwa [zpow_natCast] at this

/-- Rounding keeps multiples of a power of two. -/
theorem Nearest.mult (h : Nearest rnd) (k j : Nat) (hb : (k : ℚ) * 2 ^ j ≤ 2 ^ 1023) (hj : j ≤ 970) :
    ∃ l : Nat, rnd ((k : ℚ) * 2 ^ j) = l * 2 ^ j := by
  have h0 : (0 : ℚ) ≤ (k : ℚ) * 2 ^ j := mul_nonneg (Nat.cast_nonneg k) (pow_nonneg (by norm_num) j)
  have habs : |(k : ℚ) * 2 ^ j| ≤ 2 ^ 1023 := by
    rw [abs_of_nonneg h0]
    exact hb
  by_cases hk : k ≤ 2 ^ 53
  · exact ⟨k, h.exact (isDouble_mul_pow k j hk hj) habs⟩
  · have hd := isDouble_mul_pow (2 ^ 53) j le_rfl hj
    rw [Nat.cast_pow, Nat.cast_ofNat] at hd
    have hge : (2 : ℚ) ^ 53 * 2 ^ j ≤ rnd (k * 2 ^ j) := by
      refine h.double_le h0 hd ?_ hb
      have : (2 : ℚ) ^ 53 ≤ k := by exact_mod_cast (not_le.mp hk).le
      gcongr
    obtain ⟨a, e, ha, -, -, he⟩ := h.isDouble _ habs
    rw [he] at hge ⊢
    have hez : (0 : ℚ) < 2 ^ e := zpow_pos (by norm_num) _
    have ha' : (a : ℚ) ≤ 2 ^ 53 := by exact_mod_cast (le_abs_self a).trans ha
    have h2 : (2 : ℚ) ^ (j : ℤ) ≤ 2 ^ e := by
      rw [zpow_natCast]
      have : (2 : ℚ) ^ 53 * 2 ^ j ≤ 2 ^ 53 * 2 ^ e := hge.trans (mul_le_mul_of_nonneg_right ha' hez.le)
      exact le_of_mul_le_mul_left this (by positivity)
    have h3 : (j : ℤ) ≤ e := (zpow_le_zpow_iff_right₀ (by norm_num : (1 : ℚ) < 2)).mp h2
    have h4 : 0 ≤ a := by
      have h5 : (0 : ℚ) < a * 2 ^ e := lt_of_lt_of_le (by positivity) hge
      have h6 : (0 : ℚ) < a := pos_of_mul_pos_left h5 hez.le
      have : (0 : ℤ) < a := by exact_mod_cast h6
      omega
    obtain ⟨i, rfl⟩ : ∃ i : Nat, e = i + j := ⟨(e - j).toNat, by omega⟩
    refine ⟨a.toNat * 2 ^ i, ?_⟩
    have h7 : ((a.toNat : Nat) : ℚ) = a := by exact_mod_cast Int.toNat_of_nonneg h4
    push_cast
    rw [h7, zpow_add₀ (by norm_num), zpow_natCast, zpow_natCast]
    ring

/-- Counts over at least the support are whole numbers, also after rounding. -/
theorem cntF_mult (h : Nearest rnd) {n : Nat} (hn : n ≤ 970) (d : DD) (neg : Bool) (j : Nat) (hh : d.height + j ≤ n) :
    ∃ k : Nat, cntF rnd (2 ^ n) d neg = k * 2 ^ j := by
  have hn' : n ≤ 1000 := by omega
  induction d generalizing neg j with
  | one =>
    simp only [DD.height] at hh
    cases neg
    · refine ⟨2 ^ (n - j), ?_⟩
      simp only [cntF, Bool.false_eq_true, if_false]
      push_cast
      rw [← pow_add]
      congr 1
      omega
    · exact ⟨0, by simp [cntF]⟩
  | node v t c e iht ihe =>
    simp only [DD.height] at hh
    rw [cntF_node]
    have big := two_pow_le_big (show n ≤ 1023 by omega)
    have key : ∀ (s : DD) (neg : Bool), (∃ k : Nat, cntF rnd (2 ^ n) s neg = k * 2 ^ (j + 1)) →
        ∃ l : Nat, rnd (cntF rnd (2 ^ n) s neg / 2) = l * 2 ^ j ∧ (l : ℚ) * 2 ^ j ≤ 2 ^ n := by
      intro s neg ⟨k, hk⟩
      obtain ⟨-, s0, s1⟩ := cntF_range h hn' s neg
      have hb := (by linarith : cntF rnd (2 ^ n) s neg / 2 ≤ (2 : ℚ) ^ n)
      have e : cntF rnd (2 ^ n) s neg / 2 = k * 2 ^ j := by rw [hk, pow_succ]; ring
      obtain ⟨l, hl⟩ := h.mult k j (by rw [← e]; exact hb.trans big) (by omega)
      rw [← e] at hl
      refine ⟨l, hl, ?_⟩
      rw [← hl]
      exact h.le_double (by linarith) (isDouble_two_pow hn') hb (hb.trans big)
    obtain ⟨k, hk, b1⟩ := key t neg (iht neg (j + 1) (by omega))
    obtain ⟨l, hl, b2⟩ := key e (neg ^^ c) (ihe (neg ^^ c) (j + 1) (by omega))
    have b3 : (2 : ℚ) ^ n + 2 ^ n ≤ 2 ^ 1023 := by
      have := two_pow_le_big (show n + 1 ≤ 1023 by omega)
      rw [pow_succ] at this
      exact (by linarith : (2 : ℚ) ^ n + 2 ^ n ≤ 2 ^ n * 2).trans this
    rw [hk, hl]
    have := h.mult (k + l) j (by push_cast; rw [add_mul]; exact (add_le_add b1 b2).trans b3) (by omega)
    push_cast at this
    rwa [add_mul] at this

/-- A rounded count is off by at most one unit in the last place per variable. -/
theorem countMintermF_near (h : Nearest rnd) {n s : Nat} (hn : n ≤ 1000) (b : BDD m) (hs : b.edge.n.height ≤ s)
    (hs' : s ≤ 1000) : |countMintermF rnd b n - b.edge.frac * 2 ^ n| ≤ s / 2 ^ 52 * (b.edge.frac * 2 ^ n) := by
  obtain ⟨h1, h2⟩ := cntF_rel h hn b.edge.n b.edge.neg b.wf (hs.trans hs')
  have hb := frac_bounds (m := m) (a := b.edge) b.wf
  have hp : (0 : ℚ) ≤ b.edge.frac * 2 ^ n := mul_nonneg hb.1 (by positivity)
  have hq : (b.edge.n.height : ℚ) ≤ s := by exact_mod_cast hs
  have hq0 : (0 : ℚ) ≤ b.edge.n.height := by positivity
  unfold countMintermF
  have e : (⟨b.edge.neg, b.edge.n⟩ : Edge) = b.edge := rfl
  rw [e] at h1 h2
  set F := cntF rnd (2 ^ n) b.edge.n b.edge.neg
  set c := b.edge.frac * 2 ^ n
  have hh : (b.edge.n.height : ℚ) * c ≤ s * c := mul_le_mul_of_nonneg_right hq hp
  have hc : 0 ≤ (b.edge.n.height : ℚ) * c := mul_nonneg hq0 hp
  norm_num at h1 h2 ⊢
  rw [abs_le]
  constructor <;> linarith

theorem countMintermF_exact (h : Nearest rnd) {n : Nat} (hn : n ≤ 1000) (b : BDD m) (hs : b.edge.n.height ≤ 53) :
    countMintermF rnd b n = b.edge.frac * 2 ^ n := cntF_exact h hn b.edge.n b.edge.neg hs

theorem countMintermF_nat (h : Nearest rnd) {n : Nat} (hn : n ≤ 970) (b : BDD m) (hs : b.edge.n.height ≤ n) :
    ∃ k : Nat, countMintermF rnd b n = k ∧ k ≤ 2 ^ n := by
  obtain ⟨k, hk⟩ := cntF_mult h hn b.edge.n b.edge.neg 0 (by omega)
  rw [pow_zero, mul_one] at hk
  have := (cntF_range h (show n ≤ 1000 by omega) b.edge.n b.edge.neg).2.2
  rw [hk] at this
  exact ⟨k, hk, by exact_mod_cast this⟩

/-! ### Sums -/

theorem avgLoopF_spec (h : Nearest rnd) {n : Nat} (hn : n ≤ 970) (N : Nat) (ε : ℚ) : ∀ (bs : List (BDD m)) (i sum : Nat),
    Fits N bs → (∀ b ∈ bs, b.edge.n.height ≤ n) →
    (∀ b ∈ bs, |countMintermF rnd b n - b.edge.frac * 2 ^ n| ≤ ε * (b.edge.frac * 2 ^ n)) → sum < 2 ^ 256 →
    ∃ S : Nat, avgLoopF rnd n i bs sum = u256 (sum + S) ∧ S ≤ 2 ^ i * ((2 ^ bs.length - 1) * 2 ^ n) ∧
      |(S : ℚ) - 2 ^ i * (mean N (fun x => (uAt bs x : ℚ)) * 2 ^ n)| ≤
        ε * (2 ^ i * (mean N (fun x => (uAt bs x : ℚ)) * 2 ^ n))
  | [], i, sum, _, _, _, hs => ⟨0, by
      rw [avgLoopF, Nat.add_zero]; exact (Nat.mod_eq_of_lt hs).symm, Nat.zero_le _, by rw [mean_uAt_nil]; simp⟩
  | b :: bs, i, sum, hf, hh, he, hs => by
      obtain ⟨k, hk, hb⟩ := countMintermF_nat h hn b (hh b (by simp))
      have e : toU256 (countMintermF rnd b n) = u256 k := by
        rw [toU256, hk, Int.floor_natCast, Int.toNat_natCast]
      obtain ⟨S, h1, h2, h3⟩ := avgLoopF_spec h hn N ε bs (i + 1) (u256 (sum + 2 ^ i * k))
        (fun c hc => hf c (by simp [hc])) (fun c hc => hh c (by simp [hc])) (fun c hc => he c (by simp [hc])) (u256_lt _)
      refine ⟨2 ^ i * k + S, ?_, ?_, ?_⟩
      · rw [avgLoopF, e, u256_add_mul, h1]
        unfold u256
        simp [Nat.add_assoc]
      · have hp : 1 ≤ 2 ^ bs.length := Nat.one_le_two_pow
        obtain ⟨l, hl⟩ : ∃ l, 2 ^ bs.length = l + 1 := ⟨2 ^ bs.length - 1, by omega⟩
        rw [hl, Nat.add_sub_cancel] at h2
        rw [List.length_cons, pow_succ 2 bs.length, hl]
        rw [show (l + 1) * 2 - 1 = 2 * l + 1 by omega]
        calc 2 ^ i * k + S ≤ 2 ^ i * 2 ^ n + 2 ^ (i + 1) * (l * 2 ^ n) := Nat.add_le_add (Nat.mul_le_mul_left _ hb) h2
          _ = 2 ^ i * ((2 * l + 1) * 2 ^ n) := by rw [pow_succ]; ring
      · have hb' := he b (by simp)
        rw [hk] at hb'
        rw [mean_uAt_cons N b bs (hf b (by simp))]
        rw [pow_succ] at h3
        push_cast
        set μ := mean N (fun x => (uAt bs x : ℚ))
        have hp : (0 : ℚ) < 2 ^ i := by positivity
        have hb2 : |(2 : ℚ) ^ i * k - 2 ^ i * (b.edge.frac * 2 ^ n)| ≤ ε * (2 ^ i * (b.edge.frac * 2 ^ n)) := by
          rw [← mul_sub, abs_mul, abs_of_pos hp]
          calc (2 : ℚ) ^ i * |(k : ℚ) - b.edge.frac * 2 ^ n| ≤ 2 ^ i * (ε * (b.edge.frac * 2 ^ n)) :=
                mul_le_mul_of_nonneg_left hb' hp.le
            _ = _ := by ring
        rw [show (2 : ℚ) ^ i * k + S - 2 ^ i * ((b.edge.frac + 2 * μ) * 2 ^ n) =
          (2 ^ i * k - 2 ^ i * (b.edge.frac * 2 ^ n)) + (S - 2 ^ i * 2 * (μ * 2 ^ n)) by ring]
        refine (abs_add_le _ _).trans ((add_le_add hb2 h3).trans (le_of_eq ?_))
        ring

/-- The average before the quotient is rounded to 100 digits. -/
theorem averageValueF_spec (h : Nearest rnd) (f : List (BDD m)) (n N : Nat) (hN : Fits N f)
    (hn : ∀ b ∈ f, b.supportSize ≤ n) (hlen : f.length + n ≤ 256) (ε : ℚ)
    (hε : ∀ b ∈ f, ∀ k ≤ n, |countMintermF rnd b k - b.edge.frac * 2 ^ k| ≤ ε * (b.edge.frac * 2 ^ k)) :
    ∃ q, averageValueF rnd dec f = .ok (dec q) ∧ 0 ≤ q ∧
      |q - mean N (fun x => (uAt f x : ℚ))| ≤ ε * mean N (fun x => (uAt f x : ℚ)) := by
  have hle : maxSupportSize f ≤ n := maxSupportSize_le hn
  set n' := maxSupportSize f with hn'
  obtain ⟨S, h1, h2, h3⟩ := avgLoopF_spec h (n := n') (by omega) N ε f 0 0 hN
    (fun b hb => b.height_le.trans (supportSize_le_max hb)) (fun b hb => hε b hb n' hle) (by norm_num)
  simp only [pow_zero, one_mul] at h2 h3
  have h256 : n' < 256 := by
    cases f with
    | nil => simp [hn', maxSupportSize]
    | cons b bs => simp only [List.length_cons] at hlen; omega
  have hS : S < 2 ^ 256 := by
    have : (2 ^ f.length - 1) * 2 ^ n' < 2 ^ f.length * 2 ^ n' :=
      Nat.mul_lt_mul_of_pos_right (Nat.sub_lt (Nat.two_pow_pos _) one_pos) (Nat.two_pow_pos _)
    calc S < 2 ^ (f.length + n') := by rw [pow_add]; exact lt_of_le_of_lt h2 this
      _ ≤ 2 ^ 256 := Nat.pow_le_pow_right (by norm_num) (by omega)
  have hp : (0 : ℚ) < 2 ^ n' := by positivity
  refine ⟨S / 2 ^ n', ?_, by positivity, ?_⟩
  · rw [averageValueF, ← hn', h1, Nat.zero_add]
    have e1 : u256 S = S := Nat.mod_eq_of_lt hS
    have e2 : u256 (2 ^ n') = 2 ^ n' := Nat.mod_eq_of_lt (Nat.pow_lt_pow_right (by norm_num) h256)
    rw [e1, e2, fdiv, if_neg (by positivity)]
    simp only [bind, Except.bind]
    push_cast
    rfl
  · set μ := mean N (fun x => (uAt f x : ℚ))
    rw [show (S : ℚ) / 2 ^ n' - μ = (S - μ * 2 ^ n') / 2 ^ n' by field_simp, abs_div, abs_of_pos hp, div_le_iff₀ hp]
    linarith

/-! ### Squares -/

/-- The count used by the code for two bits. -/
def truncCountF (rnd : ℚ → ℚ) (n : Nat) (a b : BDD m) : Nat := ⌊countMintermF rnd (a.and b) n⌋.toNat

theorem sqInnerF_spec (n i : Nat) (a : BDD m) : ∀ (bs : List (BDD m)) (j sum : Nat), i < j → sum < 2 ^ 256 →
    sqInnerF rnd n i a j bs sum = u256 (sum + 2 * (2 ^ i * 2 ^ j) * innerSum (truncCountF rnd n) a bs)
  | [], j, sum, _, hs => by
      rw [sqInnerF, innerSum, Nat.mul_zero, Nat.add_zero]; exact (Nat.mod_eq_of_lt hs).symm
  | b :: bs, j, sum, hij, hs => by
      rw [sqInnerF]
      simp only [show ¬ i = j by omega, if_false]
      rw [sqInnerF_spec n i a bs (j + 1) _ (by omega) (u256_lt _), innerSum]
      change u256 (u256 (sum + u256 (u256 (u256 (u256 (2 ^ i) * u256 (2 ^ j)) *
        u256 (truncCountF rnd n a b)) * 2)) + _) = _
      unfold u256
      rw [pow_succ 2 j]
      generalize (2 : Nat) ^ 256 = W
      generalize 2 ^ i = p
      generalize 2 ^ j = q
      generalize truncCountF rnd n a b = t
      generalize innerSum (truncCountF rnd n) a bs = u
      have e : sum + 2 * (p * q) * (t + 2 * u) = sum + p * q * t * 2 + 2 * (p * (q * 2)) * u := by ring
      rw [e]
      simp only [Nat.add_mod, Nat.mul_mod, Nat.mod_mod]

theorem sqLoopF_spec (n : Nat) : ∀ (f : List (BDD m)) (i sum : Nat), sum < 2 ^ 256 →
    sqLoopF rnd n i f sum = u256 (sum + 4 ^ i * sqSum (truncCountF rnd n) f)
  | [], i, sum, hs => by
      rw [sqLoopF, sqSum, Nat.mul_zero, Nat.add_zero]; exact (Nat.mod_eq_of_lt hs).symm
  | a :: rest, i, sum, hs => by
      rw [sqLoopF, sqInnerF]
      simp only [if_true]
      rw [sqInnerF_spec n i a rest (i + 1) _ (by omega) (u256_lt _),
        sqLoopF_spec n rest (i + 1) _ (u256_lt _), sqSum]
      change u256 (u256 (u256 (sum + u256 (u256 (u256 (u256 (2 ^ i) * u256 (2 ^ i)) *
        u256 (truncCountF rnd n a a)) * 1)) + _) + _) = _
      have h4 : 4 ^ i = 2 ^ i * 2 ^ i := by rw [← mul_pow]; norm_num
      unfold u256
      rw [pow_succ 2 i, pow_succ 4 i, h4]
      generalize (2 : Nat) ^ 256 = W
      generalize 2 ^ i = p
      generalize truncCountF rnd n a a = t
      generalize innerSum (truncCountF rnd n) a rest = u
      generalize sqSum (truncCountF rnd n) rest = v
      have e : sum + p * p * (t + 4 * u + 4 * v)
          = sum + p * p * t * 1 + 2 * (p * (p * 2)) * u + p * p * 4 * v := by ring
      rw [e]
      simp only [Nat.add_mod, Nat.mul_mod, Nat.mod_mod]

theorem innerSum_near {n : Nat} {ε : ℚ} (T : BDD m → BDD m → Nat) (a : BDD m) : ∀ bs : List (BDD m),
    (∀ b ∈ bs, |(T a b : ℚ) - bothFrac a b * 2 ^ n| ≤ ε * (bothFrac a b * 2 ^ n) ∧ T a b ≤ 2 ^ n) →
    |((innerSum T a bs : Nat) : ℚ) - innerSum bothFrac a bs * 2 ^ n| ≤ ε * (innerSum bothFrac a bs * 2 ^ n) ∧
      ((innerSum T a bs : Nat) : ℚ) ≤ (2 ^ bs.length - 1) * 2 ^ n
  | [], _ => by simp [innerSum]
  | b :: bs, h => by
      obtain ⟨h1, h2⟩ := innerSum_near T a bs (fun c hc => h c (by simp [hc]))
      obtain ⟨h3, h4⟩ := h b (by simp)
      have h4' : (T a b : ℚ) ≤ 2 ^ n := by exact_mod_cast h4
      simp only [innerSum, List.length_cons]
      push_cast
      refine ⟨?_, ?_⟩
      · rw [abs_le] at h1 h3 ⊢
        constructor <;> linarith
      · rw [pow_succ]
        linarith

theorem sqSum_near {n : Nat} {ε : ℚ} (T : BDD m → BDD m → Nat) : ∀ f : List (BDD m),
    (∀ a ∈ f, ∀ b ∈ f, |(T a b : ℚ) - bothFrac a b * 2 ^ n| ≤ ε * (bothFrac a b * 2 ^ n) ∧ T a b ≤ 2 ^ n) →
    |((sqSum T f : Nat) : ℚ) - sqSum bothFrac f * 2 ^ n| ≤ ε * (sqSum bothFrac f * 2 ^ n) ∧
      ((sqSum T f : Nat) : ℚ) ≤ (2 ^ f.length - 1) ^ 2 * 2 ^ n
  | [], _ => by simp [sqSum]
  | a :: rest, h => by
      obtain ⟨h1, h2⟩ := sqSum_near T rest (fun b hb c hc => h b (by simp [hb]) c (by simp [hc]))
      obtain ⟨h3, h4⟩ := innerSum_near T a rest (fun b hb => h a (by simp) b (by simp [hb]))
      obtain ⟨h5, h6⟩ := h a (by simp) a (by simp)
      have h6' : (T a a : ℚ) ≤ 2 ^ n := by exact_mod_cast h6
      simp only [sqSum, List.length_cons]
      push_cast
      refine ⟨?_, ?_⟩
      · rw [abs_le] at h1 h3 h5 ⊢
        constructor <;> linarith
      · have e : ((2 : ℚ) ^ (rest.length + 1) - 1) ^ 2 * 2 ^ n =
            2 ^ n + 4 * ((2 ^ rest.length - 1) * 2 ^ n) + 4 * ((2 ^ rest.length - 1) ^ 2 * 2 ^ n) := by
          rw [pow_succ]
          ring
        rw [e]
        linarith

/-- The mean square before the quotient is rounded to 100 digits. -/
theorem meanSquaredValueF_spec (h : Nearest rnd) (f : List (BDD m)) (n N : Nat) (hN : Fits N f)
    (hn : maxSupportSize f = n) (hboth : ∀ a ∈ f, ∀ b ∈ f, (a.and b).edge.n.height ≤ n)
    (hlen : 2 * f.length + n ≤ 256) (ε : ℚ) (hε : ∀ a ∈ f, ∀ b ∈ f,
      |countMintermF rnd (a.and b) n - bothFrac a b * 2 ^ n| ≤ ε * (bothFrac a b * 2 ^ n)) :
    ∃ q, meanSquaredValueF rnd dec f = .ok (dec q) ∧ 0 ≤ q ∧
      |q - mean N (fun x => (uAt f x : ℚ) ^ 2)| ≤ ε * mean N (fun x => (uAt f x : ℚ) ^ 2) := by
  have hT : ∀ a ∈ f, ∀ b ∈ f, (truncCountF rnd n a b : ℚ) = countMintermF rnd (a.and b) n ∧
      truncCountF rnd n a b ≤ 2 ^ n := fun a ha b hb => by
    obtain ⟨k, hk, hk'⟩ := countMintermF_nat h (n := n) (by omega) (a.and b) (hboth a ha b hb)
    rw [truncCountF, hk, Int.floor_natCast, Int.toNat_natCast]
    exact ⟨rfl, hk'⟩
  obtain ⟨h1, h2⟩ := sqSum_near (n := n) (ε := ε) (truncCountF rnd n) f (fun a ha b hb => by
    obtain ⟨e1, e2⟩ := hT a ha b hb
    exact ⟨by rw [e1]; exact hε a ha b hb, e2⟩)
  rw [sqSum_mean N f hN] at h1
  set S := sqSum (truncCountF rnd n) f with hS
  have hp : (0 : ℚ) < 2 ^ n := by positivity
  have h256 : n < 256 := by
    cases f with
    | nil =>
      rw [← hn]
      simp [maxSupportSize]
    | cons b bs => simp only [List.length_cons] at hlen; omega
  have hlt : S < 2 ^ 256 := by
    have h3 : (S : ℚ) < 2 ^ (2 * f.length) * 2 ^ n := by
      refine lt_of_le_of_lt h2 (mul_lt_mul_of_pos_right ?_ hp)
      rw [mul_comm, pow_mul]
      have : (1 : ℚ) ≤ 2 ^ f.length := one_le_pow₀ (by norm_num)
      nlinarith
    have h4 : S < 2 ^ (2 * f.length) * 2 ^ n := by exact_mod_cast h3
    calc S < 2 ^ (2 * f.length + n) := by rw [pow_add]; exact h4
      _ ≤ 2 ^ 256 := Nat.pow_le_pow_right (by norm_num) hlen
  refine ⟨S / 2 ^ n, ?_, by positivity, ?_⟩
  · rw [meanSquaredValueF, hn, sqLoopF_spec n f 0 0 (by norm_num), pow_zero, one_mul, Nat.zero_add, ← hS]
    have e1 : u256 S = S := Nat.mod_eq_of_lt hlt
    have e2 : u256 (2 ^ n) = 2 ^ n := Nat.mod_eq_of_lt (Nat.pow_lt_pow_right (by norm_num) h256)
    rw [e1, e2, fdiv, if_neg (by positivity)]
    simp only [bind, Except.bind]
    push_cast
    rfl
  · set μ := mean N (fun x => (uAt f x : ℚ) ^ 2)
    rw [show (S : ℚ) / 2 ^ n - μ = (S - μ * 2 ^ n) / 2 ^ n by field_simp, abs_div, abs_of_pos hp, div_le_iff₀ hp]
    linarith

/-! ### The truncated counts in general -/

theorem truncCountF_bounds (h : Nearest rnd) {n s : Nat} (hn : n ≤ 970) (hs : s ≤ 1000) (a b : BDD m)
    (hh : (a.and b).edge.n.height ≤ s) : truncCountF rnd n a b ≤ 2 ^ n ∧
      (truncCountF rnd n a b : ℚ) ≤ (1 + s / 2 ^ 52) * (bothFrac a b * 2 ^ n) := by
  obtain ⟨-, h0, h1⟩ := cntF_range h (show n ≤ 1000 by omega) (a.and b).edge.n (a.and b).edge.neg
  have hnear := (abs_le.mp (countMintermF_near h (n := n) (by omega) (a.and b) hh hs)).2
  have hfl : (truncCountF rnd n a b : ℚ) ≤ countMintermF rnd (a.and b) n := by
    have h2 := Int.floor_le (countMintermF rnd (a.and b) n)
    have h3 : 0 ≤ ⌊countMintermF rnd (a.and b) n⌋ := Int.floor_nonneg.mpr h0
    have h4 : ((truncCountF rnd n a b : ℕ) : ℚ) = ((⌊countMintermF rnd (a.and b) n⌋ : ℤ) : ℚ) := by
      have := Int.toNat_of_nonneg h3
      exact_mod_cast this
    rw [h4]
    exact h2
  constructor
  · have : (truncCountF rnd n a b : ℚ) ≤ 2 ^ n := hfl.trans h1
    exact_mod_cast this
  · rw [bothFrac]
    linarith

theorem innerSum_up {n : Nat} {ε : ℚ} (T : BDD m → BDD m → Nat) (a : BDD m) : ∀ bs : List (BDD m),
    (∀ b ∈ bs, T a b ≤ 2 ^ n ∧ (T a b : ℚ) ≤ (1 + ε) * (bothFrac a b * 2 ^ n)) →
    ((innerSum T a bs : Nat) : ℚ) ≤ (1 + ε) * (innerSum bothFrac a bs * 2 ^ n) ∧
      ((innerSum T a bs : Nat) : ℚ) ≤ (2 ^ bs.length - 1) * 2 ^ n
  | [], _ => by simp [innerSum]
  | b :: bs, h => by
      obtain ⟨h1, h2⟩ := innerSum_up T a bs (fun c hc => h c (by simp [hc]))
      obtain ⟨h4, h3⟩ := h b (by simp)
      have h4' : (T a b : ℚ) ≤ 2 ^ n := by exact_mod_cast h4
      simp only [innerSum, List.length_cons]
      push_cast
      exact ⟨by linarith, by rw [pow_succ]; linarith⟩

theorem sqSum_up {n : Nat} {ε : ℚ} (T : BDD m → BDD m → Nat) : ∀ f : List (BDD m),
    (∀ a ∈ f, ∀ b ∈ f, T a b ≤ 2 ^ n ∧ (T a b : ℚ) ≤ (1 + ε) * (bothFrac a b * 2 ^ n)) →
    ((sqSum T f : Nat) : ℚ) ≤ (1 + ε) * (sqSum bothFrac f * 2 ^ n) ∧
      ((sqSum T f : Nat) : ℚ) ≤ (2 ^ f.length - 1) ^ 2 * 2 ^ n
  | [], _ => by simp [sqSum]
  | a :: rest, h => by
      obtain ⟨h1, h2⟩ := sqSum_up T rest (fun b hb c hc => h b (by simp [hb]) c (by simp [hc]))
      obtain ⟨h3, h4⟩ := innerSum_up T a rest (fun b hb => h a (by simp) b (by simp [hb]))
      obtain ⟨h6, h5⟩ := h a (by simp) a (by simp)
      have h6' : (T a a : ℚ) ≤ 2 ^ n := by exact_mod_cast h6
      simp only [sqSum, List.length_cons]
      push_cast
      refine ⟨by linarith, ?_⟩
      have e : ((2 : ℚ) ^ (rest.length + 1) - 1) ^ 2 * 2 ^ n =
          2 ^ n + 4 * ((2 ^ rest.length - 1) * 2 ^ n) + 4 * ((2 ^ rest.length - 1) ^ 2 * 2 ^ n) := by
        rw [pow_succ]
        ring
      rw [e]
      linarith

theorem diagSum_low {n : Nat} {ε : ℚ} (T : BDD m → BDD m → Nat) : ∀ f : List (BDD m),
    (∀ a ∈ f, (1 - ε) * (bothFrac a a * 2 ^ n) ≤ T a a) →
    (1 - ε) * (diagSum bothFrac f * 2 ^ n) ≤ ((sqSum T f : Nat) : ℚ)
  | [], _ => by simp [sqSum, diagSum]
  | a :: rest, h => by
      have h1 := diagSum_low T rest (fun b hb => h b (by simp [hb]))
      have h2 := h a (by simp)
      have h6 : (0 : ℚ) ≤ (innerSum T a rest : Nat) := Nat.cast_nonneg _
      simp only [sqSum, diagSum]
      push_cast
      linarith

/-- The mean square before the quotient is rounded, for any functions. -/
theorem meanSquaredValueF_bounds (h : Nearest rnd) (f : List (BDD m)) (N : Nat) (hN : Fits N f) (hN' : N ≤ 1000)
    (hlen : 2 * f.length + maxSupportSize f ≤ 256) :
    ∃ q, meanSquaredValueF rnd dec f = .ok (dec q) ∧ 0 ≤ q ∧ q ≤ (1 + N / 2 ^ 52) * mean N (fun x => (uAt f x : ℚ) ^ 2) ∧
      (1 - N / 2 ^ 52) * mean N (fun x => (uAt f x : ℚ) ^ 2) ≤ 3 * q := by
  obtain ⟨n, hn⟩ : ∃ n, n = maxSupportSize f := ⟨_, rfl⟩
  rw [← hn] at hlen
  have h256 : n < 256 := by
    cases f with
    | nil => rw [hn]; simp [maxSupportSize]
    | cons b bs => simp only [List.length_cons] at hlen; omega
  have hh : ∀ a ∈ f, ∀ b ∈ f, (a.and b).edge.n.height ≤ N := fun a ha b hb => by
    refine (a.and b).height_le.trans (supportSize_le_of_fits ?_)
    intro v hv
    rw [BDD.mem_supportIndices] at hv
    obtain ⟨x, hx⟩ := hv
    by_contra hvN
    apply hx
    have key : ∀ d ∈ f, d.eval (Function.update x v true) = d.eval (Function.update x v false) := fun d hd' => by
      apply BDD.eval_congr
      intro w hw
      have : w ≠ v := fun e => hvN (e ▸ hN d hd' w hw)
      simp [Function.update, this]
    rw [BDD.eval_and, BDD.eval_and, key a ha, key b hb]
  obtain ⟨h1, h2⟩ := sqSum_up (n := n) (ε := (N : ℚ) / 2 ^ 52) (truncCountF rnd n) f (fun a ha b hb =>
    truncCountF_bounds h (by omega) hN' a b (hh a ha b hb))
  have h3 := diagSum_low (n := n) (ε := (N : ℚ) / 2 ^ 52) (truncCountF rnd n) f (fun a ha => by
    have haa : a.and a = a := BDD.ext_eval (fun x => by simp)
    have hsz : a.edge.n.height ≤ n := a.height_le.trans (hn ▸ supportSize_le_max ha)
    obtain ⟨k, hk, -⟩ := countMintermF_nat h (n := n) (by omega) a hsz
    have hna := (abs_le.mp (countMintermF_near h (n := n) (by omega) a (haa ▸ hh a ha a ha) hN')).1
    rw [truncCountF, bothFrac, haa, hk, Int.floor_natCast, Int.toNat_natCast]
    rw [hk] at hna
    linarith)
  rw [sqSum_mean N f hN] at h1
  have h4 := diagSum_mean N f hN
  have h5 : mean N (fun x => (uAt f x : ℚ) ^ 2) ≤ mean N (fun x => (uAt f x : ℚ) ^ 2 + 2 * (uAt f x : ℚ)) := by
    apply mean_mono
    intro x
    have : (0 : ℚ) ≤ uAt f x := Nat.cast_nonneg _
    linarith
  set S := sqSum (truncCountF rnd n) f with hS
  have hp : (0 : ℚ) < 2 ^ n := by positivity
  have hlt : S < 2 ^ 256 := by
    have h3 : (S : ℚ) < 2 ^ (2 * f.length) * 2 ^ n := by
      refine lt_of_le_of_lt h2 (mul_lt_mul_of_pos_right ?_ hp)
      rw [mul_comm, pow_mul]
      have : (1 : ℚ) ≤ 2 ^ f.length := one_le_pow₀ (by norm_num)
      nlinarith
    have h4 : S < 2 ^ (2 * f.length) * 2 ^ n := by exact_mod_cast h3
    calc S < 2 ^ (2 * f.length + n) := by rw [pow_add]; exact h4
      _ ≤ 2 ^ 256 := Nat.pow_le_pow_right (by norm_num) hlen
  refine ⟨S / 2 ^ n, ?_, by positivity, ?_, ?_⟩
  · rw [meanSquaredValueF, ← hn, sqLoopF_spec n f 0 0 (by norm_num), pow_zero, one_mul, Nat.zero_add, ← hS]
    have e1 : u256 S = S := Nat.mod_eq_of_lt hlt
    have e2 : u256 (2 ^ n) = 2 ^ n := Nat.mod_eq_of_lt (Nat.pow_lt_pow_right (by norm_num) h256)
    rw [e1, e2, fdiv, if_neg (by positivity)]
    simp only [bind, Except.bind]
    push_cast
    rfl
  · rw [div_le_iff₀ hp]
    linarith
  · have hN0 : (0 : ℚ) ≤ 1 - N / 2 ^ 52 := by
      have : (N : ℚ) ≤ 1000 := by exact_mod_cast hN'
      have : (N : ℚ) / 2 ^ 52 ≤ 1000 / 2 ^ 52 := div_le_div_of_nonneg_right this (by norm_num)
      norm_num at this ⊢
      linarith
    have h6 : (1 - (N : ℚ) / 2 ^ 52) * mean N (fun x => (uAt f x : ℚ) ^ 2) ≤ 3 * ((1 - N / 2 ^ 52) * diagSum bothFrac f) := by
      have := mul_le_mul_of_nonneg_left (h5.trans h4) hN0
      linarith
    have h7 : (1 - (N : ℚ) / 2 ^ 52) * diagSum bothFrac f ≤ S / 2 ^ n := by
      rw [le_div_iff₀ hp]
      linarith
    linarith

/-- Up to 53 variables only the quotient is rounded. -/
theorem meanSquaredValueF_exact (h : Nearest rnd) (f : List (BDD m)) (N : Nat) (hN : Fits N f) (h53 : N ≤ 53) :
    meanSquaredValueF rnd dec f = (meanSquaredValue f).map dec := by
  have hn : maxSupportSize f ≤ N := maxSupportSize_le (fun b hb => supportSize_le_of_fits (hN b hb))
  have hT : ∀ a ∈ f, ∀ b ∈ f, truncCountF rnd (maxSupportSize f) a b = truncCount (maxSupportSize f) a b := by
    intro a ha b hb
    have hh : (a.and b).edge.n.height ≤ N := by
      refine (a.and b).height_le.trans (supportSize_le_of_fits ?_)
      intro v hv
      rw [BDD.mem_supportIndices] at hv
      obtain ⟨x, hx⟩ := hv
      by_contra hvN
      apply hx
      have key : ∀ d ∈ f, d.eval (Function.update x v true) = d.eval (Function.update x v false) := fun d hd' => by
        apply BDD.eval_congr
        intro w hw
        have : w ≠ v := fun e => hvN (e ▸ hN d hd' w hw)
        simp [Function.update, this]
      rw [BDD.eval_and, BDD.eval_and, key a ha, key b hb]
    rw [truncCountF, countMintermF_exact h (by omega) (a.and b) (by omega), truncCount]
    rfl
  have hin : ∀ (a : BDD m), a ∈ f → ∀ bs : List (BDD m), (∀ b ∈ bs, b ∈ f) →
      innerSum (truncCountF rnd (maxSupportSize f)) a bs = innerSum (truncCount (maxSupportSize f)) a bs := by
    intro a ha bs
    induction bs with
    | nil => intro _; rfl
    | cons b bs ih =>
        intro hb
        rw [innerSum, innerSum, ih (fun c hc => hb c (by simp [hc])), hT a ha b (hb b (by simp))]
  have hsq : ∀ bs : List (BDD m), (∀ b ∈ bs, b ∈ f) →
      sqSum (truncCountF rnd (maxSupportSize f)) bs = sqSum (truncCount (maxSupportSize f)) bs := by
    intro bs
    induction bs with
    | nil => intro _; rfl
    | cons b bs ih =>
        intro hb
        rw [sqSum, sqSum, ih (fun c hc => hb c (by simp [hc])), hT b (hb b (by simp)) b (hb b (by simp)),
          hin b (hb b (by simp)) bs (fun c hc => hb c (by simp [hc]))]
  rw [meanSquaredValueF, meanSquaredValue, sqLoopF_spec _ f 0 0 (by norm_num), sqLoop_spec _ f 0 0 (by norm_num),
    hsq f (fun b hb => hb)]
  cases fdiv _ _ <;> rfl

/-- Rounding the quotient adds little. -/
theorem dec_near (hd : Dec100 dec) {q μ ε : ℚ} (h0 : 0 ≤ q) (hμ : 0 ≤ μ) (hε : ε ≤ 1) (h : |q - μ| ≤ ε * μ) :
    |dec q - μ| ≤ (ε + 1 / 10 ^ 98) * μ ∧ (dec q = 0 ↔ q = 0) ∧ 0 ≤ dec q := by
  have h1 := hd.near q
  rw [abs_of_nonneg h0] at h1
  have hq : q ≤ 2 * μ := by
    rw [abs_le] at h
    have : ε * μ ≤ 1 * μ := mul_le_mul_of_nonneg_right hε hμ
    linarith [h.2]
  refine ⟨?_, ?_, ?_⟩
  · rw [abs_le] at h h1 ⊢
    norm_num at h1 ⊢
    constructor <;> linarith [h.1, h.2]
  · rw [abs_le] at h1
    norm_num at h1
    constructor
    · intro hz
      rw [hz] at h1
      linarith [h1.1]
    · rintro rfl
      linarith [h1.1, h1.2]
  · rw [abs_le] at h1
    norm_num at h1
    linarith [h1.1]

/-! ### Quotients of doubles -/

/-- A sum or count divided by the number of inputs is not rounded. -/
theorem quot_exact (h : Nearest rnd) {F c : ℚ} {n s : Nat} (hd : IsDouble F) (h0 : 0 ≤ F) (hs : s ≤ 1000)
    (hF : F = 0 ∨ c ≠ 0) (hc : c ≠ 0 → 1 / 2 ^ s ≤ c) (hle : c * 2 ^ n * (1 / 2) ≤ F) (hb : F / 2 ^ n ≤ 2 ^ 10) :
    rnd (F / 2 ^ n) = F / 2 ^ n := by
  have hp : (0 : ℚ) < 2 ^ n := by positivity
  refine h.exact (isDouble_div_pow hd n ?_)
    (by rw [abs_of_nonneg (div_nonneg h0 hp.le)]; exact hb.trans (two_pow_le_big (by norm_num)))
  rcases hF with hF | hF
  · exact .inl hF
  · right
    rw [le_div_iff₀ hp]
    refine le_trans ?_ hle
    have h3 := hc hF
    have h5 : (1 : ℚ) / 2 ^ 1020 ≤ 1 / 2 ^ s :=
      one_div_le_one_div_of_le (by positivity) (pow_le_pow_right₀ (by norm_num) (by omega))
    calc (1 : ℚ) / 2 ^ 1021 * 2 ^ n = 1 / 2 ^ 1020 * 2 ^ n * (1 / 2) := by rw [pow_succ]; field_simp
      _ ≤ c * 2 ^ n * (1 / 2) := by
        have := h5.trans h3
        gcongr

theorem countMintermF_quot (h : Nearest rnd) {n : Nat} (hn1 : n ≤ 1000) (r : BDD m) (hh : r.edge.n.height ≤ 1000) :
    rnd (countMintermF rnd r n / 2 ^ n) = countMintermF rnd r n / 2 ^ n := by
  have hrg := cntF_range h hn1 r.edge.n r.edge.neg
  have hrel := (cntF_rel h hn1 r.edge.n r.edge.neg r.wf hh)
  have hb := frac_bounds (m := m) (a := r.edge) r.wf
  have hu : (r.edge.n.height : ℚ) ≤ 1000 := by exact_mod_cast hh
  have e : (⟨r.edge.neg, r.edge.n⟩ : Edge) = r.edge := rfl
  rw [e] at hrel
  change IsDouble (countMintermF rnd r n) ∧ 0 ≤ countMintermF rnd r n ∧ countMintermF rnd r n ≤ 2 ^ n at hrg
  change _ ≤ countMintermF rnd r n ∧ countMintermF rnd r n ≤ _ at hrel
  obtain ⟨hd, h0, h1⟩ := hrg
  have q1 : countMintermF rnd r n = 0 ∨ r.edge.frac ≠ 0 := by
    by_cases hc : r.edge.frac = 0
    · left
      rw [hc] at hrel
      simp only [zero_mul] at hrel
      exact le_antisymm hrel.2 hrel.1
    · exact .inr hc
  have q2 : r.edge.frac * 2 ^ n * (1 / 2) ≤ countMintermF rnd r n := by
    refine le_trans ?_ hrel.1
    apply mul_le_mul_of_nonneg_left _ (mul_nonneg hb.1 (by positivity))
    have : (r.edge.n.height : ℚ) * (1 / 2 ^ 53) ≤ 1000 * (1 / 2 ^ 53) := mul_le_mul_of_nonneg_right hu (by positivity)
    have : (1000 : ℚ) * (1 / 2 ^ 53) ≤ 1 / 2 := by norm_num
    linarith
  have q3 : countMintermF rnd r n / 2 ^ n ≤ 2 ^ 10 := by
    have : countMintermF rnd r n / 2 ^ n ≤ 1 := by
      rw [div_le_one (by positivity)]
      exact h1
    exact this.trans (by norm_num)
  exact quot_exact h hd h0 hh q1 (fun hc => frac_ge hc) q2 q3

theorem errorRateF_spec (h : Nearest rnd) (f g : List (BDD m)) (N : Nat) (hl : f.length = g.length)
    (hf : Fits N f) (hg : Fits N g) (hN' : N ≤ 1000) (hne : f ≠ []) :
    ∃ (q : ℚ) (n : Nat) (r : BDD m), errorRateF rnd f g = .ok q ∧ n ≤ 1000 ∧ q = countMintermF rnd r n / 2 ^ n ∧
      (∀ v ∈ r.supportIndices, v < N) ∧ (∀ x, r.eval x = decide (bitsAt f x ≠ bitsAt g x)) := by
  obtain ⟨r, hr, hv⟩ := miterLoop_spec f g .zero hl.le
  rw [List.take_of_length_le hl.ge] at hv
  have hv' : ∀ x, r.eval x = decide (bitsAt f x ≠ bitsAt g x) := fun x => by rw [hv x]; simp
  have hfit : ∀ v ∈ r.supportIndices, v < N := fits_of_eval (fun x y hxy => by
    rw [hv', hv', bitsAt_agree hf hxy, bitsAt_agree hg hxy])
  obtain ⟨b, bs, rfl⟩ := List.exists_cons_of_ne_nil hne
  have htl1 : 0 < terminalLevel [b :: bs, g] := terminalLevel_pos (f := b :: bs) (b := b) (by simp) (by simp)
  have htl2 : terminalLevel [b :: bs, g] ≤ 1001 := by
    apply terminalLevel_le (by norm_num)
    intro k hk c hc v hvc
    have : v < N := by
      simp only [List.mem_cons, List.not_mem_nil, or_false] at hk
      rcases hk with rfl | rfl
      · exact hf c hc v hvc
      · exact hg c hc v hvc
    omega
  have hnv : (terminalLevel [b :: bs, g] + 2 ^ 32 - 1) % 2 ^ 32 = terminalLevel [b :: bs, g] - 1 := by omega
  set n := terminalLevel [b :: bs, g] - 1 with hn
  have hn1 : n ≤ 1000 := by omega
  have hred : errorRateF rnd (b :: bs) g = .ok (rnd (countMintermF rnd r n / 2 ^ n)) := by
    unfold errorRateF
    rw [hr, hnv]
    simp only [bind, Except.bind, pow2]
    rw [if_neg (by omega), if_neg (by omega)]
    simp only [fdiv]
    rw [if_neg (by positivity)]
  have hh : r.edge.n.height ≤ 1000 := (r.height_le.trans (supportSize_le_of_fits hfit)).trans hN'
  refine ⟨countMintermF rnd r n / 2 ^ n, n, r, ?_, hn1, rfl, hfit, hv'⟩
  rw [hred, countMintermF_quot h hn1 r hh]

/-! ### Sums of doubles -/

/-- One more rounded operation. -/
theorem Nearest.rel_step (h : Nearest rnd) {A S : ℚ} {a : Nat} (ha : a ≤ 2500) (hS : 0 ≤ S)
    (h1 : S * (1 - a * (1 / 2 ^ 53)) ≤ A) (h2 : A ≤ S * (1 + a * (1 / 2 ^ 52)))
    (hA : A = 0 ∨ 1 / 2 ^ 1022 ≤ A) (hb : A ≤ 2 ^ 1022) :
    S * (1 - (a + 1 : Nat) * (1 / 2 ^ 53)) ≤ rnd A ∧ rnd A ≤ S * (1 + (a + 1 : Nat) * (1 / 2 ^ 52)) := by
  obtain ⟨u, hu⟩ : ∃ u : ℚ, u = 1 / 2 ^ 53 := ⟨_, rfl⟩
  have hu2 : (1 : ℚ) / 2 ^ 52 = 2 * u := by rw [hu, pow_succ]; field_simp
  have hu0 : 0 < u := by rw [hu]; positivity
  have hus : 8192 * u ≤ 1 := by rw [hu]; norm_num
  have hsum : |rnd A - A| ≤ A * u := by
    rcases hA with rfl | hA
    · rw [h.exact' isDouble_zero le_rfl (by norm_num)]
      simp
    · rw [hu]
      exact h.rel hA hb
  clear hA hb
  rw [hu2] at h2 ⊢
  rw [← hu] at h1 ⊢
  have haq : (a : ℚ) ≤ 2500 := by exact_mod_cast ha
  have ha0 : (0 : ℚ) ≤ a := by positivity
  rw [abs_le] at hsum
  push_cast
  have hau : 0 ≤ (a : ℚ) * (u * u) := by positivity
  constructor
  · calc S * (1 - (a + 1) * u) ≤ S * ((1 - a * u) * (1 - u)) := by
          apply mul_le_mul_of_nonneg_left _ hS
          linarith [(by ring : (1 - (a : ℚ) * u) * (1 - u) = 1 - (a + 1) * u + a * (u * u))]
      _ = S * (1 - a * u) * (1 - u) := by ring
      _ ≤ A * (1 - u) := mul_le_mul_of_nonneg_right h1 (by linarith)
      _ ≤ rnd A := by linarith [hsum.1]
  · have hau2 : (a : ℚ) * (2 * u) ≤ 1 := by nlinarith
    calc rnd A ≤ A * (1 + u) := by linarith [hsum.2]
      _ ≤ S * (1 + a * (2 * u)) * (1 + u) := mul_le_mul_of_nonneg_right h2 (by linarith)
      _ = S * ((1 + a * (2 * u)) * (1 + u)) := by ring
      _ ≤ S * (1 + (a + 1) * (2 * u)) := by
          apply mul_le_mul_of_nonneg_left _ hS
          have : (a : ℚ) * (2 * u) * u ≤ 1 * u := mul_le_mul_of_nonneg_right hau2 hu0.le
          linarith [(by ring : (1 + (a : ℚ) * (2 * u)) * (1 + u) = 1 + a * (2 * u) + u + a * (2 * u) * u)]

theorem rel_mono {A S : ℚ} {a b : Nat} (hS : 0 ≤ S) (hab : a ≤ b)
    (h1 : S * (1 - a * (1 / 2 ^ 53)) ≤ A) (h2 : A ≤ S * (1 + a * (1 / 2 ^ 52))) :
    S * (1 - b * (1 / 2 ^ 53)) ≤ A ∧ A ≤ S * (1 + b * (1 / 2 ^ 52)) := by
  have hq : (a : ℚ) ≤ b := by exact_mod_cast hab
  have := mul_le_mul_of_nonneg_left hq hS
  norm_num at h1 h2 ⊢
  constructor <;> linarith

/-- A relative error keeps nonzero numbers away from 0. -/
theorem rel_pos {A S : ℚ} {a : Nat} (hS : 0 ≤ S) (ha : a ≤ 2500)
    (h1 : S * (1 - a * (1 / 2 ^ 53)) ≤ A) (h2 : A ≤ S * (1 + a * (1 / 2 ^ 52))) :
    S * (1 / 2) ≤ A ∧ A ≤ S * 2 := by
  have hq : (a : ℚ) ≤ 2500 := by exact_mod_cast ha
  have := mul_le_mul_of_nonneg_left hq hS
  norm_num at h1 h2 ⊢
  constructor <;> linarith

theorem inv_pow_le {s : Nat} (hs : s ≤ 1000) : (1 : ℚ) / 2 ^ 1022 ≤ 1 / 2 ^ s * (1 / 2) := by
  calc (1 : ℚ) / 2 ^ 1022 ≤ 1 / 2 ^ (s + 1) :=
        one_div_le_one_div_of_le (by positivity) (pow_le_pow_right₀ (by norm_num) (by omega))
    _ = 1 / 2 ^ s * (1 / 2) := by rw [pow_succ]; field_simp

theorem bitFlipLoopF_spec (h : Nearest rnd) {n s : Nat} (hn : n ≤ 1000) (hs : s ≤ 1000) :
    ∀ (f g : List (BDD m)) (R S : ℚ) (a K : Nat),
    (∀ b ∈ xorDiff f g, b.edge.n.height ≤ s) → s ≤ a → a + f.length ≤ 2500 → K + f.length ≤ 1000 →
    0 ≤ S → S ≤ K * 2 ^ n → (S ≠ 0 → 1 / 2 ^ s * 2 ^ n ≤ S) → IsDouble R →
    S * (1 - a * (1 / 2 ^ 53)) ≤ R → R ≤ S * (1 + a * (1 / 2 ^ 52)) → f.length = g.length →
    IsDouble (bitFlipLoopF rnd n f g R) ∧ 0 ≤ bitFlipSum n f g ∧
      bitFlipSum n f g + S ≤ (K + f.length : Nat) * 2 ^ n ∧
      (bitFlipSum n f g + S ≠ 0 → 1 / 2 ^ s * 2 ^ n ≤ bitFlipSum n f g + S) ∧
      (bitFlipSum n f g + S) * (1 - (a + f.length : Nat) * (1 / 2 ^ 53)) ≤ bitFlipLoopF rnd n f g R ∧
      bitFlipLoopF rnd n f g R ≤ (bitFlipSum n f g + S) * (1 + (a + f.length : Nat) * (1 / 2 ^ 52))
  | [], [], R, S, a, K, _, _, _, _, _, h1, h2, h3, h4, h5, _ => by
      simp only [bitFlipLoopF, bitFlipSum, List.length_nil, Nat.add_zero, zero_add]
      exact ⟨h3, le_rfl, h1, h2, h4, h5⟩
  | x :: xs, y :: ys, R, S, a, K, hh, hsa, ha, hK, hS0, hSK, hSl, hRd, hR1, hR2, hlen => by
      simp only [List.length_cons] at ha hK
      have hx : (x.xor y).edge.n.height ≤ s := hh _ (by simp [xorDiff])
      obtain ⟨c1, c2⟩ := cntF_rel h hn (x.xor y).edge.n (x.xor y).edge.neg (x.xor y).wf (hx.trans hs)
      have e : (⟨(x.xor y).edge.neg, (x.xor y).edge.n⟩ : Edge) = (x.xor y).edge := rfl
      rw [e] at c1 c2
      change _ ≤ countMintermF rnd (x.xor y) n at c1
      change countMintermF rnd (x.xor y) n ≤ _ at c2
      have hfb := frac_bounds (m := m) (a := (x.xor y).edge) (x.xor y).wf
      have hfg : (x.xor y).edge.frac ≠ 0 → 1 / 2 ^ s ≤ (x.xor y).edge.frac := fun h0 =>
        (one_div_le_one_div_of_le (by positivity) (pow_le_pow_right₀ (by norm_num) hx)).trans
          (frac_ge (d := (x.xor y).edge.n) (neg := (x.xor y).edge.neg) h0)
      have hp : (1 : ℚ) ≤ 2 ^ n := one_le_pow₀ (by norm_num)
      have hp0 : (0 : ℚ) < 2 ^ n := by linarith
      set c := (x.xor y).edge.frac * 2 ^ n with hc
      set C := countMintermF rnd (x.xor y) n with hC
      have hc0 : 0 ≤ c := mul_nonneg hfb.1 hp0.le
      have hc1 : c ≤ 2 ^ n := by
        have := mul_le_mul_of_nonneg_right hfb.2 hp0.le
        rwa [one_mul] at this
      have hcl : c ≠ 0 → 1 / 2 ^ s * 2 ^ n ≤ c := fun h0 =>
        mul_le_mul_of_nonneg_right (hfg (fun hz => h0 (by rw [hc, hz, zero_mul]))) hp0.le
      obtain ⟨c1', c2'⟩ := rel_mono hc0 (hx.trans hsa) c1 c2
      have A1 : (S + c) * (1 - a * (1 / 2 ^ 53)) ≤ R + C := by
        rw [add_mul]
        exact add_le_add hR1 c1'
      have A2 : R + C ≤ (S + c) * (1 + a * (1 / 2 ^ 52)) := by
        rw [add_mul]
        exact add_le_add hR2 c2'
      have hSc : 0 ≤ S + c := add_nonneg hS0 hc0
      have hScK : S + c ≤ (K + 1 : Nat) * 2 ^ n := by
        push_cast
        rw [add_mul, one_mul]
        exact add_le_add hSK hc1
      have hScl : S + c ≠ 0 → 1 / 2 ^ s * 2 ^ n ≤ S + c := by
        intro h0
        by_cases hz : S = 0
        · rw [hz, zero_add] at h0 ⊢
          exact hcl h0
        · exact (hSl hz).trans (le_add_of_nonneg_right hc0)
      obtain ⟨B1, B2⟩ := rel_pos hSc (show a ≤ 2500 by omega) A1 A2
      have hK' : ((K + 1 : Nat) : ℚ) ≤ 2 ^ 10 := by
        have : K + 1 ≤ 2 ^ 10 := by omega
        exact_mod_cast this
      have hbig : R + C ≤ 2 ^ (n + 11) := by
        have : ((K + 1 : Nat) : ℚ) * 2 ^ n ≤ 2 ^ 10 * 2 ^ n := mul_le_mul_of_nonneg_right hK' hp0.le
        have e3 : (2 : ℚ) ^ (n + 11) = 2 ^ 10 * 2 ^ n * 2 := by rw [pow_add]; norm_num; ring
        rw [e3]
        generalize (2 : ℚ) ^ 10 * 2 ^ n = z at this
        linarith
      have hA : R + C = 0 ∨ 1 / 2 ^ 1022 ≤ R + C := by
        by_cases hz : S + c = 0
        · left
          rw [hz] at B1 B2
          linarith
        · right
          refine (inv_pow_le hs).trans ?_
          have h3 := hScl hz
          have h4 : (1 : ℚ) / 2 ^ s ≤ 1 / 2 ^ s * 2 ^ n := le_mul_of_one_le_right (by positivity) hp
          linarith
      have hRC0 : 0 ≤ R + C := by linarith
      obtain ⟨D1, D2⟩ := h.rel_step (show a ≤ 2500 by omega) hSc A1 A2 hA (hbig.trans (two_pow_le_big (by omega)))
      have hdbl : IsDouble (rnd (R + C)) := h.isDouble _ (by
        rw [abs_of_nonneg hRC0]
        exact hbig.trans (two_pow_le_big (by omega)))
      have ih := bitFlipLoopF_spec h hn hs xs ys (rnd (R + C)) (S + c) (a + 1) (K + 1)
        (fun b hb => hh b (by simp only [xorDiff, List.zipWith_cons_cons, List.mem_cons]; exact .inr hb))
        (by omega) (by omega) (by omega) hSc hScK hScl hdbl D1 D2 (by simpa using hlen)
      obtain ⟨i1, i2, i3, i4, i5, i6⟩ := ih
      have e1 : bitFlipSum n (x :: xs) (y :: ys) + S = bitFlipSum n xs ys + (S + c) := by
        rw [bitFlipSum, BDD.countMinterm, ← hc]
        ring
      rw [e1]
      simp only [bitFlipLoopF, List.length_cons]
      rw [show K + (xs.length + 1) = K + 1 + xs.length by omega, show a + (xs.length + 1) = a + 1 + xs.length by omega]
      refine ⟨i1, ?_, i3, i4, i5, i6⟩
      rw [bitFlipSum, BDD.countMinterm, ← hc]
      exact add_nonneg hc0 i2
  | [], _ :: _, _, _, _, _, _, _, _, _, _, _, _, _, _, _, hl => by simp at hl
  | _ :: _, [], _, _, _, _, _, _, _, _, _, _, _, _, _, _, hl => by simp at hl

/-- Small sums are exact. -/
theorem bitFlipLoopF_exact (h : Nearest rnd) {n N : Nat} (hn : n ≤ N) :
    ∀ (f g : List (BDD m)) (k K : Nat), (∀ b ∈ xorDiff f g, b.edge.n.height ≤ N) → k ≤ K * 2 ^ N →
    (K + f.length) * 2 ^ N ≤ 2 ^ 53 → N ≤ 53 → f.length = g.length →
    bitFlipLoopF rnd n f g ((k : ℚ) / 2 ^ N * 2 ^ n) = bitFlipSum n f g + (k : ℚ) / 2 ^ N * 2 ^ n
  | [], [], k, K, _, _, _, _, _ => by simp [bitFlipLoopF, bitFlipSum]
  | x :: xs, y :: ys, k, K, hh, hk, hK, hN, hlen => by
      have hx : (x.xor y).edge.n.height ≤ N := hh _ (by simp [xorDiff])
      obtain ⟨l, hl, e⟩ := frac_dyadic (x.xor y).edge.n (x.xor y).edge.neg hx
      have e' : (x.xor y).edge.frac = l / 2 ^ N := e
      simp only [List.length_cons] at hK
      have hkl : k + l ≤ (K + 1) * 2 ^ N := by
        rw [Nat.add_mul, Nat.one_mul]
        omega
      have hkl2 : k + l ≤ 2 ^ 53 :=
        hkl.trans (le_trans (Nat.mul_le_mul_right _ (by omega)) hK)
      have hd : rnd (((k + l : Nat) : ℚ) / 2 ^ N * 2 ^ n) = ((k + l : Nat) : ℚ) / 2 ^ N * 2 ^ n := by
        have e2 : ((k + l : Nat) : ℚ) / 2 ^ N * 2 ^ n = ((k + l : Nat) : ℚ) * 2 ^ ((n : ℤ) - N) := by
          rw [zpow_sub₀ (by norm_num), zpow_natCast, zpow_natCast]
          ring
        refine h.exact (by rw [e2]; exact isDouble_zpow _ _ hkl2 (by omega) (by omega)) ?_
        rw [abs_of_nonneg (by positivity)]
        have h1 : ((k + l : Nat) : ℚ) ≤ 2 ^ 53 := by exact_mod_cast hkl2
        have h2 : ((k + l : Nat) : ℚ) / 2 ^ N * 2 ^ n ≤ ((k + l : Nat) : ℚ) := by
          rw [div_mul_eq_mul_div, div_le_iff₀ (by positivity)]
          exact mul_le_mul_of_nonneg_left (two_pow_le_big hn) (by positivity)
        exact h2.trans (h1.trans (two_pow_le_big (by norm_num)))
      have ih := bitFlipLoopF_exact h hn xs ys (k + l) (K + 1)
        (fun b hb => hh b (by simp only [xorDiff, List.zipWith_cons_cons, List.mem_cons]; exact .inr hb))
        hkl (by rwa [show K + 1 + xs.length = K + (xs.length + 1) by omega]) hN (by simpa using hlen)
      have e1 : (k : ℚ) / 2 ^ N * 2 ^ n + countMintermF rnd (x.xor y) n = ((k + l : Nat) : ℚ) / 2 ^ N * 2 ^ n := by
        rw [countMintermF_exact h (show n ≤ 1000 by omega) _ (hx.trans hN), e']
        push_cast
        ring
      rw [bitFlipLoopF, e1, hd, ih, bitFlipSum, BDD.countMinterm, e']
      push_cast
      ring
  | [], _ :: _, _, _, _, _, _, _, hl => by simp at hl
  | _ :: _, [], _, _, _, _, _, _, hl => by simp at hl

theorem mean_uAt_zero (N : Nat) (f : List (BDD m)) (h : Fits N f) :
    mean N (fun x => (uAt f x : ℚ)) = 0 ↔ ∀ x, uAt f x = 0 := by
  constructor
  · intro h0 x
    by_contra hx
    have := mean_lt N (g := fun _ => 0) (h := fun x => (uAt f x : ℚ)) (fun x => by positivity) (fun i => x i) (by
      rw [show uAt f (ext fun i : Fin N => x i) = uAt f x by
        unfold uAt
        rw [bitsAt_ext h]]
      exact_mod_cast Nat.pos_of_ne_zero hx)
    rw [mean_const, h0] at this
    exact lt_irrefl _ this
  · intro h0
    simp only [h0]
    simpa using mean_const N (0 : ℚ)

theorem mean_nonneg (N : Nat) {g : Asg → ℚ} (h : ∀ x, 0 ≤ g x) : 0 ≤ mean N g := by
  have := mean_mono N (g := fun _ => 0) (h := g) h
  rwa [mean_const] at this

theorem near_zero {q μ ε : ℚ} (hμ : 0 ≤ μ) (hε : ε ≤ 1 / 2) (h : |q - μ| ≤ ε * μ) : q = 0 ↔ μ = 0 := by
  rw [abs_le] at h
  have := mul_le_mul_of_nonneg_right hε hμ
  constructor
  · rintro rfl
    linarith [h.1, h.2]
  · intro hz
    rw [hz] at h
    linarith [h.1, h.2]

theorem mean_hamming_zero (N : Nat) (f g : List (BDD m)) (hl : f.length = g.length) (hf : Fits N f) (hg : Fits N g) :
    mean N (fun x => (hamming (bitsAt f x) (bitsAt g x) : ℚ)) = 0 ↔ f = g := by
  have ham : ∀ a b : List Bool, a.length = b.length → (hamming a b = 0 ↔ a = b) := by
    intro a
    induction a with
    | nil =>
      intro b hb
      cases b with
      | nil => simp [hamming]
      | cons => simp at hb
    | cons c cs ih =>
      intro b hb
      cases b with
      | nil => simp at hb
      | cons d ds =>
        have := ih ds (by simpa using hb)
        simp only [hamming, Nat.add_eq_zero_iff, this, List.cons.injEq]
        cases c <;> cases d <;> simp
  have hlen : ∀ x, (bitsAt f x).length = (bitsAt g x).length := fun x => by simp [bitsAt, hl]
  constructor
  · intro h0
    have hall : ∀ x, bitsAt f x = bitsAt g x := by
      intro x
      by_contra hx
      have := mean_lt N (g := fun _ => 0) (h := fun x => (hamming (bitsAt f x) (bitsAt g x) : ℚ))
        (fun x => by positivity) (fun i => x i) (by
          rw [bitsAt_ext hf, bitsAt_ext hg]
          have : hamming (bitsAt f x) (bitsAt g x) ≠ 0 := fun h => hx ((ham _ _ (hlen x)).mp h)
          exact_mod_cast Nat.pos_of_ne_zero this)
      rw [mean_const, h0] at this
      exact lt_irrefl _ this
    apply List.ext_getElem hl
    intro i h1 h2
    apply BDD.ext_eval
    intro x
    have := congrArg (fun l => l[i]?) (hall x)
    simpa [bitsAt, h1, h2] using this
  · rintro rfl
    have : ∀ x, hamming (bitsAt f x) (bitsAt f x) = 0 := fun x => (ham _ _ rfl).mpr rfl
    simp only [this]
    simpa using mean_const N (0 : ℚ)

/-- Rounding to 100 digits does not repair a wrong count. -/
theorem dec_ne (hd : Dec100 dec) {k : Nat} (hk : k ≤ 2 ^ 54) (hne : k ≠ 2 ^ 54 - 1) :
    dec ((k : ℚ) / 2 ^ 54) ≠ 1 - 1 / 2 ^ 54 := by
  intro h
  have hkq : (k : ℚ) ≤ 2 ^ 54 := by exact_mod_cast hk
  have hp : (0 : ℚ) < 2 ^ 54 := by norm_num
  have hq1 : (k : ℚ) / 2 ^ 54 ≤ 1 := by rw [div_le_one hp]; exact hkq
  have hq0 : (0 : ℚ) ≤ (k : ℚ) / 2 ^ 54 := div_nonneg (Nat.cast_nonneg k) hp.le
  have hdiff : (1 : ℚ) / 2 ^ 54 ≤ |(1 : ℚ) - 1 / 2 ^ 54 - (k : ℚ) / 2 ^ 54| := by
    have hz : (1 : ℚ) ≤ |((2 ^ 54 - 1 - (k : ℤ) : ℤ) : ℚ)| := by
      rw [← Int.cast_abs]
      have : (1 : ℤ) ≤ |2 ^ 54 - 1 - (k : ℤ)| := Int.one_le_abs (fun h0 => hne (by omega))
      exact_mod_cast this
    rw [show (1 : ℚ) - 1 / 2 ^ 54 - k / 2 ^ 54 = ((2 ^ 54 - 1 - (k : ℤ) : ℤ) : ℚ) / 2 ^ 54 by
      push_cast
      field_simp
      ring, abs_div, abs_of_pos hp]
    exact div_le_div_of_nonneg_right hz hp.le
  have h1 := hd.near (k / 2 ^ 54)
  rw [h, abs_of_nonneg hq0] at h1
  have h3 : (k : ℚ) / 2 ^ 54 / 10 ^ 99 ≤ 1 / 10 ^ 99 := div_le_div_of_nonneg_right hq1 (by norm_num)
  have := hdiff.trans (h1.trans h3)
  norm_num at this

end Verif

import Verif.Model.FloatSampling
import Verif.Proofs.FloatBucket
import Verif.Proofs.FloatMetrics
import Verif.Proofs.ErrorRate
import Verif.Props.FloatExperiments

/-! # Lemmas about sampling with `double`s -/

namespace Verif

variable {m : Mgr} {rnd : ℚ → ℚ}

/-! ### Sums -/

theorem le_big_of_nat {q : ℚ} {K : Nat} (h0 : 0 ≤ q) (h : q ≤ K) (hK : K ≤ 2 ^ 53) : |q| ≤ 2 ^ 1023 := by
  rw [abs_of_nonneg h0]
  have : (K : ℚ) ≤ 2 ^ 53 := by exact_mod_cast hK
  exact (h.trans this).trans (two_pow_le_big (by norm_num))

/-- One rounded addition of a number in [0, 1]. -/
theorem add_step (h : Nearest rnd) {a p : ℚ} {K : Nat} (ha : IsDouble a) (h0 : 0 ≤ a) (hK : a ≤ K) (hb : K + 1 ≤ 2 ^ 53)
    (p0 : 0 ≤ p) (p1 : p ≤ 1) : IsDouble (rnd (a + p)) ∧ a ≤ rnd (a + p) ∧ rnd (a + p) ≤ (K + 1 : Nat) := by
  have hle : a + p ≤ (K + 1 : Nat) := by push_cast; linarith
  have hbig := le_big_of_nat (by linarith) hle hb
  exact ⟨h.isDouble _ hbig, h.le_rnd hbig ha (by linarith), h.rnd_le hbig (isDouble_nat _ hb) hle⟩

theorem sumF_range (h : Nearest rnd) : ∀ (l : List ℚ) (a : ℚ) (K : Nat), IsDouble a → 0 ≤ a → a ≤ K →
    K + l.length ≤ 2 ^ 53 → (∀ p ∈ l, 0 ≤ p ∧ p ≤ 1) →
    IsDouble (sumF rnd a l) ∧ a ≤ sumF rnd a l ∧ sumF rnd a l ≤ (K + l.length : Nat)
  | [], a, K, ha, h0, hK, _, _ => ⟨ha, le_rfl, by simpa [sumF] using hK⟩
  | p :: ps, a, K, ha, h0, hK, hb, hp => by
    rw [List.length_cons] at hb
    obtain ⟨d1, d2, d3⟩ := add_step h ha h0 hK (by omega) (hp p (by simp)).1 (hp p (by simp)).2
    obtain ⟨e1, e2, e3⟩ := sumF_range h ps _ (K + 1) d1 (h0.trans d2) d3 (by omega) (fun q hq => hp q (by simp [hq]))
    refine ⟨e1, d2.trans e2, ?_⟩
    rw [List.length_cons, show K + (ps.length + 1) = K + 1 + ps.length by omega]
    exact e3

theorem sumF_mono (h : Nearest rnd) : ∀ (l : List ℚ) (a b : ℚ) (K : Nat), 0 ≤ a → a ≤ b → IsDouble a → IsDouble b → b ≤ K →
    K + l.length ≤ 2 ^ 53 → (∀ p ∈ l, 0 ≤ p ∧ p ≤ 1) → sumF rnd a l ≤ sumF rnd b l
  | [], a, b, K, _, hab, _, _, _, _, _ => hab
  | p :: ps, a, b, K, h0, hab, ha, hb, hK, hlen, hp => by
    rw [List.length_cons] at hlen
    obtain ⟨p0, p1⟩ := hp p (by simp)
    obtain ⟨d1, d2, d3⟩ := add_step h hb (h0.trans hab) hK (by omega) p0 p1
    obtain ⟨e1, e2, e3⟩ := add_step h ha h0 (hab.trans hK) (by omega) p0 p1
    have hle : b + p ≤ (K + 1 : Nat) := by push_cast; linarith
    exact sumF_mono h ps _ _ (K + 1) (h0.trans e2)
      (h.mono (le_big_of_nat (by linarith) (by linarith) (by omega : K + 1 ≤ 2 ^ 53))
        (le_big_of_nat (by linarith) hle (by omega)) (by linarith)) e1 d1 d3 (by omega) (fun q hq => hp q (by simp [hq]))

theorem le_sumF_mem (h : Nearest rnd) : ∀ (l : List ℚ) (a x y : ℚ) (K : Nat), IsDouble a → 0 ≤ x → x ≤ a → a ≤ K →
    K + l.length ≤ 2 ^ 53 → (∀ p ∈ l, 0 ≤ p ∧ p ≤ 1) → y ∈ l → rnd (x + y) ≤ sumF rnd a l
  | [], _, _, _, _, _, _, _, _, _, _, hy => by simp at hy
  | p :: ps, a, x, y, K, ha, hx0, hxa, hK, hlen, hp, hy => by
    rw [List.length_cons] at hlen
    obtain ⟨p0, p1⟩ := hp p (by simp)
    obtain ⟨d1, d2, d3⟩ := add_step h ha (hx0.trans hxa) hK (by omega) p0 p1
    have hps : ∀ q ∈ ps, 0 ≤ q ∧ q ≤ 1 := fun q hq => hp q (by simp [hq])
    rcases List.mem_cons.mp hy with rfl | hy
    · have hle : a + y ≤ (K + 1 : Nat) := by push_cast; linarith
      refine (h.mono (le_big_of_nat (by linarith) (by linarith) (by omega : K + 1 ≤ 2 ^ 53))
        (le_big_of_nat (by linarith) hle (by omega)) (by linarith)).trans ?_
      exact (sumF_range h ps _ (K + 1) d1 (hx0.trans (hxa.trans d2)) d3 (by omega) hps).2.1
    · exact le_sumF_mem h ps _ x y (K + 1) d1 hx0 (hxa.trans d2) d3 (by omega) hps hy

/-- A sum is at least the rounded sum of any two of the summands. -/
theorem le_sumF_pair (h : Nearest rnd) {x y : ℚ} (hxd : IsDouble x) : ∀ (l : List ℚ) (a : ℚ) (K : Nat), IsDouble a → 0 ≤ a → a ≤ K →
    K + l.length ≤ 2 ^ 53 → (∀ p ∈ l, 0 ≤ p ∧ p ≤ 1) → List.Sublist [x, y] l → rnd (x + y) ≤ sumF rnd a l
  | [], _, _, _, _, _, _, _, hs => by simp at hs
  | p :: ps, a, K, ha, h0, hK, hlen, hp, hs => by
    rw [List.length_cons] at hlen
    obtain ⟨p0, p1⟩ := hp p (by simp)
    obtain ⟨d1, d2, d3⟩ := add_step h ha h0 hK (by omega) p0 p1
    have hps : ∀ q ∈ ps, 0 ≤ q ∧ q ≤ 1 := fun q hq => hp q (by simp [hq])
    cases hs with
    | cons _ hs => exact le_sumF_pair h hxd ps _ (K + 1) d1 (h0.trans d2) d3 (by omega) hps hs
    | cons_cons _ hs =>
      have hle : a + x ≤ (K + 1 : Nat) := by push_cast; linarith
      refine le_sumF_mem h ps _ x y (K + 1) d1 p0 ?_ d3 (by omega) hps (by simpa using hs)
      exact h.le_rnd (le_big_of_nat (by linarith) hle (by omega)) hxd (by linarith)

/-- Zeros do not change a sum. -/
theorem sumF_filter (h : Nearest rnd) : ∀ (l : List ℚ) (a : ℚ) (K : Nat), IsDouble a → 0 ≤ a → a ≤ K →
    K + l.length ≤ 2 ^ 53 → (∀ p ∈ l, 0 ≤ p ∧ p ≤ 1) → sumF rnd a l = sumF rnd a (l.filter (fun p => p ≠ 0))
  | [], _, _, _, _, _, _, _ => rfl
  | p :: ps, a, K, ha, h0, hK, hlen, hp => by
    rw [List.length_cons] at hlen
    have hps : ∀ q ∈ ps, 0 ≤ q ∧ q ≤ 1 := fun q hq => hp q (by simp [hq])
    by_cases hz : p = 0
    · subst hz
      rw [sumF, add_zero, h.exact ha (le_big_of_nat h0 hK (by omega)), List.filter_cons_of_neg (by simp)]
      exact sumF_filter h ps a K ha h0 hK (by omega) hps
    · obtain ⟨d1, d2, d3⟩ := add_step h ha h0 hK (by omega) (hp p (by simp)).1 (hp p (by simp)).2
      rw [List.filter_cons_of_pos (by simpa using hz), sumF, sumF]
      exact sumF_filter h ps _ (K + 1) d1 (h0.trans d2) d3 (by omega) hps

/-- Multiples of `1 / 2 ^ N` are added without rounding. -/
theorem sumF_exact (h : Nearest rnd) {N : Nat} (hN : N ≤ 1074) : ∀ (l : List ℚ) (k K : Nat),
    (∀ p ∈ l, ∃ j : Nat, j ≤ 2 ^ N ∧ p = j / 2 ^ N) → k ≤ K → K + l.length * 2 ^ N ≤ 2 ^ 53 →
    sumF rnd ((k : ℚ) / 2 ^ N) l = k / 2 ^ N + l.sum ∧ ∃ j : Nat, j ≤ K + l.length * 2 ^ N ∧
      (k : ℚ) / 2 ^ N + l.sum = j / 2 ^ N
  | [], k, K, _, hk, hK => ⟨by simp [sumF], k, by simpa using hk, by simp⟩
  | p :: ps, k, K, hp, hk, hK => by
    obtain ⟨j, hj, rfl⟩ := hp p (by simp)
    rw [List.length_cons, Nat.succ_mul] at hK
    obtain ⟨e1, i, e2, e3⟩ := sumF_exact h hN ps (k + j) (K + 2 ^ N) (fun q hq => hp q (by simp [hq])) (by omega) (by omega)
    have hpos : (0 : ℚ) < 2 ^ N := by positivity
    have hadd : (k : ℚ) / 2 ^ N + j / 2 ^ N = (k + j : Nat) / 2 ^ N := by push_cast; rw [add_div]
    have hb : |((k + j : Nat) : ℚ) / 2 ^ N| ≤ 2 ^ 1023 := by
      refine le_big_of_nat (K := k + j) (by positivity) (div_le_self (by positivity) (one_le_pow₀ (by norm_num))) (by omega)
    have hr : rnd ((k : ℚ) / 2 ^ N + j / 2 ^ N) = (k + j : Nat) / 2 ^ N := by
      rw [hadd]
      exact h.exact (isDouble_nat_div _ _ (by omega) hN) hb
    refine ⟨?_, i, by rw [List.length_cons, Nat.succ_mul]; omega, ?_⟩
    · rw [sumF, hr, e1, List.sum_cons, ← add_assoc, hadd]
    · rw [List.sum_cons, ← add_assoc, hadd, e3]

/-- The relative error of a sum. -/
theorem sumF_rel (h : Nearest rnd) : ∀ (l : List (ℚ × ℚ)) (a S : ℚ) (c : Nat) (K : Nat), c + l.length ≤ 2500 →
    IsDouble a → 0 ≤ a → a ≤ K → K + l.length ≤ 2 ^ 53 → (a = 0 ∨ 1 / 2 ^ 1022 ≤ a) → 0 ≤ S →
    S * (1 - c * (1 / 2 ^ 53)) ≤ a → a ≤ S * (1 + c * (1 / 2 ^ 52)) →
    (∀ p ∈ l, 0 ≤ p.1 ∧ p.1 ≤ 1 ∧ 0 ≤ p.2 ∧ (p.1 = 0 ∨ 1 / 2 ^ 1022 ≤ p.1) ∧ p.2 * (1 - c * (1 / 2 ^ 53)) ≤ p.1 ∧
      p.1 ≤ p.2 * (1 + c * (1 / 2 ^ 52))) →
    sumF rnd a (l.map Prod.fst) ≤ (S + (l.map Prod.snd).sum) * (1 + (c + l.length : Nat) * (1 / 2 ^ 52))
  | [], a, S, c, K, _, _, _, _, _, _, _, _, h2, _ => by simpa [sumF] using h2
  | (x, y) :: ps, a, S, c, K, hc, ha, h0, hK, hlen, hs, hS, h1, h2, hp => by
    rw [List.length_cons] at hc hlen
    obtain ⟨x0, x1, y0, xs, r1, r2⟩ := hp (x, y) (by simp)
    simp only at x0 x1 y0 xs r1 r2
    obtain ⟨d1, d2, d3⟩ := add_step h ha h0 hK (by omega) x0 x1
    have hle : a + x ≤ (K + 1 : Nat) := by push_cast; linarith only [hK, x1]
    have hb : a + x ≤ 2 ^ 1022 := by
      have : ((K + 1 : Nat) : ℚ) ≤ 2 ^ 53 := by exact_mod_cast (by omega : K + 1 ≤ 2 ^ 53)
      exact (hle.trans this).trans (two_pow_le_big (by norm_num))
    have hA : a + x = 0 ∨ 1 / 2 ^ 1022 ≤ a + x := by
      rcases hs with rfl | hs
      · rcases xs with rfl | xs
        · left; ring
        · right; rw [zero_add]; exact xs
      · right
        exact hs.trans (le_add_of_nonneg_right x0)
    obtain ⟨s1, s2⟩ := h.rel_step (a := c) (by omega) (add_nonneg hS y0)
      (A := a + x) (S := S + y) (by rw [add_mul]; exact add_le_add h1 r1) (by rw [add_mul]; exact add_le_add h2 r2) hA hb
    have hA' : rnd (a + x) = 0 ∨ 1 / 2 ^ 1022 ≤ rnd (a + x) := by
      rcases hA with hz | hA
      · left
        rw [hz]
        exact h.exact' isDouble_zero le_rfl (by norm_num)
      · right
        refine h.le_rnd (le_big_of_nat (by linarith only [h0, x0]) hle (by omega)) ?_ hA
        exact isDouble_nat_div 1 1022 (by norm_num) (by norm_num) |> fun h => by simpa using h
    have ih := sumF_rel h ps (rnd (a + x)) (S + y) (c + 1) (K + 1) (by omega) d1 (h0.trans d2) d3 (by omega) hA'
      (add_nonneg hS y0) s1 s2 (fun p hpm => by
        obtain ⟨q0, q1, q2, q3, q4, q5⟩ := hp p (by simp [hpm])
        obtain ⟨t1, t2⟩ := rel_mono q2 (Nat.le_succ c) q4 q5
        exact ⟨q0, q1, q2, q3, t1, t2⟩)
    rw [List.map_cons, List.map_cons, List.sum_cons, sumF, List.length_cons, ← add_assoc,
      show c + (ps.length + 1) = c + 1 + ps.length by omega]
    exact ih

/-! ### The random walk -/

theorem randomSatLoopF_total (cnt : NMap ℚ) (rs : Nat → Nat) : ∀ (k level : Nat) (a : Edge),
    (∀ b ∈ a.n.reach a.neg, ∃ q, NMap.find cnt b = some q) →
    ∃ l, randomSatLoopF rnd cnt rs k level a = .ok l ∧ l.length = k
  | 0, level, ⟨neg, .one⟩, _ => ⟨[], by simp [randomSatLoopF], rfl⟩
  | 0, level, ⟨neg, .node v t c e⟩, _ => ⟨[], by simp [randomSatLoopF], rfl⟩
  | k + 1, level, ⟨neg, .one⟩, hc => by
      obtain ⟨l, hl, hlen⟩ := randomSatLoopF_total cnt rs k (level + 1) ⟨neg, .one⟩ hc
      exact ⟨rs level % 2 :: l, by simp [randomSatLoopF, hl, bind, Except.bind], by simp [hlen]⟩
  | k + 1, level, ⟨neg, .node v t c e⟩, hc => by
      by_cases hlv : level < v
      · obtain ⟨l, hl, hlen⟩ := randomSatLoopF_total cnt rs k (level + 1) ⟨neg, .node v t c e⟩ hc
        exact ⟨rs level % 2 :: l, by simp [randomSatLoopF, hlv, hl, bind, Except.bind], by simp [hlen]⟩
      · obtain ⟨tw, ht⟩ := hc ⟨neg, t⟩ (reach_then (DD.self_mem_reach t neg))
        obtain ⟨ew, he⟩ := hc ⟨neg ^^ c, e⟩ (reach_else (DD.self_mem_reach e _))
        obtain ⟨l1, hl1, hlen1⟩ := randomSatLoopF_total cnt rs k (level + 1) ⟨neg, t⟩ (fun b hb => hc b (reach_then hb))
        obtain ⟨l2, hl2, hlen2⟩ := randomSatLoopF_total cnt rs k (level + 1) ⟨neg ^^ c, e⟩
          (fun b hb => hc b (reach_else hb))
        rw [randomSatLoopF, if_neg hlv, ht, he]
        simp only
        split
        · exact ⟨1 :: l1, by simp [hl1, bind, Except.bind], by simp [hlen1]⟩
        · exact ⟨0 :: l2, by simp [hl2, bind, Except.bind], by simp [hlen2]⟩

theorem goodLoopF_bounds (d : BDD m) (readSize : Nat) (earlier : List (BDD m))
    (he : Fits readSize earlier) (rs : Nat → Nat → Nat) : ∀ k b,
    ∃ g, goodLoopF rnd d (countMintermsF rnd d) readSize earlier rs b k = .ok g ∧ g ≤ k
  | 0, _ => ⟨0, rfl, le_rfl⟩
  | k + 1, b => by
      obtain ⟨l, hl, hlen⟩ := randomSatLoopF_total (rnd := rnd) (countMintermsF rnd d) (rs b) readSize 0 d.edge
        (fun b hb => ⟨_, countMintermsF_find rnd d hb⟩)
      have ha := anyOne_spec (inp := l) earlier (by rw [hlen]; exact he)
      obtain ⟨g, hg, hle⟩ := goodLoopF_bounds d readSize earlier he rs k (b + 1)
      simp only [goodLoopF, randomSatisfyingInputF, hl, ha, hg, bind, Except.bind]
      exact ⟨_, rfl, by have := Bool.toNat_le (!decide (∃ b ∈ earlier, b.eval (asgOf l) = true)); omega⟩

/-! ### The main loop -/

/-- What one bit adds is between 0 and its rate. -/
theorem share_range (h : Nearest rnd) {act : ℚ} (hd : IsDouble act) (a0 : 0 ≤ act) (a1 : act ≤ 1) {g n : Nat} (hg : g ≤ n)
    (hn0 : 0 < n) (hn : n ≤ 2 ^ 53) : 0 ≤ rnd (act * rnd (rnd g / rnd n)) ∧ rnd (act * rnd (rnd g / rnd n)) ≤ act := by
  rw [h.small g (hg.trans hn), h.small n hn]
  have hnq : (0 : ℚ) < n := by exact_mod_cast hn0
  have q0 : (0 : ℚ) ≤ g / n := by positivity
  have q1 : (g : ℚ) / n ≤ 1 := by rw [div_le_one hnq]; exact_mod_cast hg
  have r0 := h.nonneg q0 ((q1.trans (by norm_num : (1 : ℚ) ≤ 2)).trans two_le_big)
  have r1 := h.le_one q0 q1
  have p0 : 0 ≤ act * rnd (g / n) := mul_nonneg a0 r0
  have p1 : act * rnd (g / n) ≤ act := mul_le_of_le_one_right a0 r1
  have hb : act * rnd (g / n) ≤ 2 ^ 1023 := ((p1.trans a1).trans (by norm_num : (1 : ℚ) ≤ 2)).trans two_le_big
  exact ⟨h.nonneg p0 hb, h.le_double p0 hd p1 hb⟩

theorem effLoopF_bounds (h : Nearest rnd) (diff : List (BDD m)) (readSize : Nat) (hN : Fits readSize diff) (samples : Int)
    (denom : ℚ) (hd : denom ≠ 0) (rs : Nat → Nat → Nat → Nat) :
    ∀ (acts : List (Nat × ℚ)) (i : Nat) (earlier : List (BDD m)) (rate : ℚ) (K : Nat),
    Fits readSize earlier → IsDouble rate → 0 ≤ rate → rate ≤ K → K + acts.length ≤ 2 ^ 53 →
    (∀ p ∈ acts, p.1 < diff.length ∧ IsDouble p.2 ∧ 0 ≤ p.2 ∧ p.2 ≤ 1 ∧
      0 ≤ rnd (rnd (rnd samples * p.2) / denom) ∧ rnd (rnd (rnd samples * p.2) / denom) < 2 ^ 31) →
    ∃ q, effLoopF rnd diff readSize samples denom rs i earlier acts rate = .ok q ∧
      rate ≤ q ∧ q ≤ sumF rnd rate (acts.map Prod.snd)
  | [], i, earlier, rate, K, _, _, _, _, _, _ => ⟨rate, rfl, le_rfl, le_rfl⟩
  | (idx, act) :: rest, i, earlier, rate, K, he, hrd, hr0, hrK, hlen, hp => by
      obtain ⟨hidx, had, ha0, ha1, hq0, hq1⟩ := hp (idx, act) (by simp)
      simp only at hidx had ha0 ha1 hq0 hq1
      rw [List.length_cons] at hlen
      have hfl0 : 0 ≤ ⌊rnd (rnd (rnd samples * act) / denom)⌋ := Int.floor_nonneg.mpr hq0
      have hfl1 : ⌊rnd (rnd (rnd samples * act) / denom)⌋ < 2 ^ 31 := by
        rw [Int.floor_lt]
        exact_mod_cast hq1
      have hd' : vget diff idx = .ok diff[idx] := by
        have := vget_eq diff idx diff[idx] hidx
        rwa [List.getD_eq_getElem _ _ hidx] at this
      have he' : Fits readSize (earlier ++ [diff[idx]]) := by
        intro b hb
        rcases List.mem_append.mp hb with h | h
        · exact he b h
        · rw [List.mem_singleton] at h; subst h
          exact hN _ (List.getElem_mem hidx)
      have hmem : ∀ p ∈ rest.map Prod.snd, 0 ≤ p ∧ p ≤ 1 := by
        intro p hpm
        obtain ⟨r, hr, rfl⟩ := List.mem_map.mp hpm
        obtain ⟨-, -, u, v, -⟩ := hp r (by simp [hr])
        exact ⟨u, v⟩
      have hll : (rest.map Prod.snd).length = rest.length := List.length_map _
      obtain ⟨d1, d2, d3⟩ := add_step h hrd hr0 hrK (by omega) ha0 ha1
      rw [effLoopF, if_neg hd]
      simp only [if_pos hq0]
      rw [if_neg (by omega)]
      simp only [hd', bind, Except.bind]
      split
      · obtain ⟨q, hq, h1, h2⟩ := effLoopF_bounds h diff readSize hN samples denom hd rs rest (i + 1)
          (earlier ++ [diff[idx]]) rate K he' hrd hr0 hrK (by omega) (fun p hpm => hp p (by simp [hpm]))
        refine ⟨q, hq, h1, h2.trans ?_⟩
        rw [List.map_cons, sumF]
        exact sumF_mono h _ _ _ (K + 1) hr0 d2 hrd d1 d3 (by omega) hmem
      · rename_i hne
        obtain ⟨n, hn⟩ : ∃ n : Nat, ⌊rnd (rnd (rnd samples * act) / denom)⌋ = n := ⟨_, (Int.toNat_of_nonneg hfl0).symm⟩
        rw [hn] at hfl1 hne ⊢
        obtain ⟨g, hg, hgle⟩ := goodLoopF_bounds (rnd := rnd) diff[idx] readSize earlier he (rs i) n 0
        rw [Int.toNat_natCast]
        simp only [hg]
        obtain ⟨s0, s1⟩ := share_range h had ha0 ha1 hgle (by omega) (by omega)
        obtain ⟨e1, e2, e3⟩ := add_step h hrd hr0 hrK (by omega) s0 (s1.trans ha1)
        rw [Int.cast_natCast]
        obtain ⟨q, hq, h1, h2⟩ := effLoopF_bounds h diff readSize hN samples denom hd rs rest (i + 1)
          (earlier ++ [diff[idx]]) (rnd (rate + rnd (act * rnd (rnd g / rnd n)))) (K + 1) he' e1 (hr0.trans e2) e3 (by omega)
          (fun p hpm => hp p (by simp [hpm]))
        refine ⟨q, hq, e2.trans h1, h2.trans ?_⟩
        rw [List.map_cons, sumF]
        have hle : rate + act ≤ (K + 1 : Nat) := by push_cast; linarith only [hrK, ha1]
        exact sumF_mono h _ _ _ (K + 1) (hr0.trans e2)
          (h.mono (le_big_of_nat (by linarith only [hr0, s0]) ((add_le_add_right s1 rate).trans hle) (by omega))
            (le_big_of_nat (by linarith only [hr0, ha0]) hle (by omega)) (add_le_add_right s1 rate)) e1 d1 d3 (by omega) hmem

end Verif

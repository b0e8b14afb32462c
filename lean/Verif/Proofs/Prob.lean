import Verif.SpecProb
import Verif.Proofs.Nodes
import Verif.Model.Count
import Mathlib.Algebra.Order.BigOperators.Expect
import Mathlib.Algebra.Order.Floor.Ring
import Mathlib.Algebra.BigOperators.Fin
import Mathlib.Tactic.Linarith
import Mathlib.Tactic.FieldSimp

/-!
# Lemmas on averages over random sequences
-/

namespace Verif

open scoped BigOperators
open Finset

variable {m : Mgr}

theorem expect_cons {Ω : Type} [Fintype Ω] (k : Nat) (F : (Fin (k + 1) → Ω) → ℚ) :
    𝔼 a : Fin (k + 1) → Ω, F a = 𝔼 r : Ω, 𝔼 a : Fin k → Ω, F (Fin.cons r a) := by
  rw [← Fintype.expect_equiv (Fin.consEquiv (fun _ : Fin (k + 1) => Ω))
    (fun p => F (Fin.cons p.1 p.2)) F (fun p => rfl), ← Finset.univ_product_univ,
    Finset.expect_product]

theorem expect_coord {Ω : Type} [Fintype Ω] [Nonempty Ω] (k : Nat) (j : Fin k) (h : Ω → ℚ) :
    𝔼 a : Fin k → Ω, h (a j) = 𝔼 r : Ω, h r := by
  induction k with
  | zero => exact j.elim0
  | succ k ih =>
    rw [expect_cons]
    refine Fin.cases ?_ (fun i => ?_) j
    · simp only [Fin.cons_zero]
      simp
    · simp only [Fin.cons_succ]
      rw [ih]
      simp

theorem seqOf_cons_zero {k n : Nat} (r : Fin n) (a : Fin k → Fin n) :
    seqOf (Fin.cons r a : Fin (k + 1) → Fin n) 0 = r.val := by
  simp only [seqOf, Nat.zero_lt_succ, dif_pos]
  rfl

theorem seqOf_cons_succ {k n : Nat} (r : Fin n) (a : Fin k → Fin n) (i : Nat) :
    seqOf (Fin.cons r a : Fin (k + 1) → Fin n) (i + 1) = seqOf a i := by
  simp only [seqOf, Nat.add_lt_add_iff_right]
  split
  · rfl
  · rfl

theorem sum_parity (h : Nat → ℚ) : ∀ n, ∑ r ∈ range (2 * n), h (r % 2) = n * (h 0 + h 1)
  | 0 => by simp
  | n + 1 => by
    rw [show 2 * (n + 1) = 2 * n + 1 + 1 by ring, sum_range_succ, sum_range_succ, sum_parity h n]
    rw [show 2 * n % 2 = 0 by omega, show (2 * n + 1) % 2 = 1 by omega]
    push_cast; ring

theorem expect_fin (n : Nat) (h : Nat → ℚ) : 𝔼 r : Fin n, h r.val = (∑ r ∈ range n, h r) / n := by
  rw [Fintype.expect_eq_sum_div_card, Fintype.card_fin, Fin.sum_univ_eq_sum_range]

theorem expect_parity (h : Nat → ℚ) : 𝔼 r : Fin drawRange, h (r.val % 2) = (h 0 + h 1) / 2 := by
  rw [expect_fin drawRange (fun r => h (r % 2))]
  have : drawRange = 2 * 1073741824 := rfl
  rw [this, sum_parity]
  push_cast
  field_simp
  ring

/-- Number of draws that take the then-branch. -/
theorem sum_threshold (P Q p : ℚ) (hp0 : 0 ≤ p) (hp1 : p ≤ 1) :
    ∃ d : ℚ, 𝔼 r : Fin drawRange, (if (r.val : ℚ) / randMax ≤ p then P else Q) = d * P + (1 - d) * Q ∧
      (1 - 1 / drawRange) * p ≤ d ∧ (1 - 1 / drawRange) * (1 - p) ≤ 1 - d := by
  have hM : (drawRange : ℚ) = randMax + 1 := by norm_num [drawRange, randMax]
  have hM0 : (0 : ℚ) < randMax := by norm_num [randMax]
  have hn : drawRange = randMax + 1 := rfl
  have hiff : ∀ r : Nat, (r : ℚ) / randMax ≤ p ↔ r ≤ ⌊p * randMax⌋₊ := fun r => by
    rw [div_le_iff₀ hM0, Nat.le_floor_iff (by positivity)]
  have hle : ⌊p * randMax⌋₊ ≤ randMax := by
    have : p * randMax ≤ randMax := by nlinarith
    have h2 := Nat.floor_le_floor this
    simpa using h2
  have hfl := Nat.floor_le (a := p * randMax) (by positivity)
  have hfl2 := Nat.lt_floor_add_one (p * (randMax : ℚ))
  refine ⟨(⌊p * randMax⌋₊ + 1 : ℚ) / drawRange, ?_, ?_, ?_⟩
  · rw [expect_fin drawRange (fun r => if (r : ℚ) / randMax ≤ p then P else Q)]
    have hsum : ∀ n, ⌊p * (randMax : ℚ)⌋₊ ≤ n → ∑ r ∈ range (n + 1), (if (r : ℚ) / randMax ≤ p then P else Q)
        = (⌊p * randMax⌋₊ + 1) * P + (n - ⌊p * (randMax : ℚ)⌋₊) * Q := by
      intro n hn
      induction n, hn using Nat.le_induction with
      | base =>
        rw [sum_congr rfl (g := fun _ => P) (fun r hr => if_pos ((hiff r).mpr (by
          have := mem_range.mp hr; omega)))]
        simp
      | succ n hn ih =>
        rw [sum_range_succ, ih, if_neg (by rw [hiff]; omega)]
        push_cast; ring
    rw [hn, hsum _ hle]
    push_cast
    have : (randMax : ℚ) + 1 ≠ 0 := by positivity
    field_simp
    ring
  · rw [hM, le_div_iff₀ (by positivity)]
    have : (1 - 1 / ((randMax : ℚ) + 1)) * p * (randMax + 1) = p * randMax := by field_simp; ring
    rw [this]; linarith
  · rw [hM, le_sub_iff_add_le, ← le_sub_iff_add_le', div_le_iff₀ (by positivity)]
    have : (1 - (1 - 1 / ((randMax : ℚ) + 1)) * (1 - p)) * (randMax + 1) = p * randMax + 1 := by
      field_simp; ring
    rw [this]; linarith

/-- The loop only reads the draws from its level on. -/
theorem randomSatLoop_congr (cnt : NMap ℚ) (rs rs' : Nat → Nat) : ∀ (k level : Nat) (a : Edge),
    (∀ i, level ≤ i → rs i = rs' i) → randomSatLoop cnt rs k level a = randomSatLoop cnt rs' k level a
  | 0, level, a, h => by simp [randomSatLoop]
  | k + 1, level, ⟨neg, .one⟩, h => by
    rw [randomSatLoop, randomSatLoop, h level le_rfl,
      randomSatLoop_congr cnt rs rs' k (level + 1) _ (fun i hi => h i (by omega))]
  | k + 1, level, ⟨neg, .node v t c e⟩, h => by
    rw [randomSatLoop, randomSatLoop, h level le_rfl,
      randomSatLoop_congr cnt rs rs' k (level + 1) ⟨neg, .node v t c e⟩ (fun i hi => h i (by omega)),
      randomSatLoop_congr cnt rs rs' k (level + 1) ⟨neg, t⟩ (fun i hi => h i (by omega)),
      randomSatLoop_congr cnt rs rs' k (level + 1) ⟨neg ^^ c, e⟩ (fun i hi => h i (by omega))]

/-- Mean of `g` over the results of the loop. -/
noncomputable def walkMean (cnt : NMap ℚ) (k level : Nat) (a : Edge) (g : List Nat → ℚ) : ℚ :=
  𝔼 s : Fin k → Fin drawRange, atResult g (randomSatLoop cnt (fun i => seqOf s (i - level)) k level a)

theorem walk_shift (cnt : NMap ℚ) (k level : Nat) (a : Edge) (r : Fin drawRange)
    (s : Fin k → Fin drawRange) :
    randomSatLoop cnt (fun i => seqOf (Fin.cons r s : Fin (k + 1) → Fin drawRange) (i - level)) k (level + 1) a
      = randomSatLoop cnt (fun i => seqOf s (i - (level + 1))) k (level + 1) a := by
  apply randomSatLoop_congr
  intro i hi
  rw [show i - level = (i - (level + 1)) + 1 by omega, seqOf_cons_succ]

theorem atResult_bind_cons (g : List Nat → ℚ) (b : Nat) (x : Except Fault (List Nat)) :
    atResult g (x >>= fun l => .ok (b :: l)) = atResult (fun l => g (b :: l)) x := by
  cases x <;> rfl

/-- Mean over the inputs on the levels from `level` on at which the edge is true. -/
noncomputable def trueMean (k level : Nat) (a : Edge) (g : List Nat → ℚ) : ℚ :=
  𝔼 w : Fin k → Bool, if a.eval (extFrom level w) then g (List.ofFn fun i => (w i).toNat) else 0

theorem walkMean_skip (cnt : NMap ℚ) (k level : Nat) (a : Edge) (g : List Nat → ℚ)
    (ha : ∀ rs, randomSatLoop cnt rs (k + 1) level a
      = (randomSatLoop cnt rs k (level + 1) a >>= fun l => .ok (rs level % 2 :: l))) :
    walkMean cnt (k + 1) level a g = (walkMean cnt k (level + 1) a (fun l => g (0 :: l)) +
      walkMean cnt k (level + 1) a (fun l => g (1 :: l))) / 2 := by
  unfold walkMean
  rw [expect_cons, ← expect_parity (fun b => 𝔼 s : Fin k → Fin drawRange,
    atResult (fun l => g (b :: l)) (randomSatLoop cnt (fun i => seqOf s (i - (level + 1))) k (level + 1) a))]
  refine Finset.expect_congr rfl (fun r _ => Finset.expect_congr rfl (fun s _ => ?_))
  rw [ha, atResult_bind_cons, walk_shift, Nat.sub_self, seqOf_cons_zero]

theorem walkMean_node (cnt : NMap ℚ) (k level : Nat) (neg c : Bool) (t e : DD) (g : List Nat → ℚ)
    (ft fe : ℚ) (ht : NMap.find cnt ⟨neg, t⟩ = some ft) (he : NMap.find cnt ⟨neg ^^ c, e⟩ = some fe) :
    walkMean cnt (k + 1) level ⟨neg, .node level t c e⟩ g =
      𝔼 r : Fin drawRange, if ft + fe ≠ 0 ∧ (r.val : ℚ) / randMax ≤ ft / (ft + fe)
        then walkMean cnt k (level + 1) ⟨neg, t⟩ (fun l => g (1 :: l))
        else walkMean cnt k (level + 1) ⟨neg ^^ c, e⟩ (fun l => g (0 :: l)) := by
  unfold walkMean
  rw [expect_cons]
  refine Finset.expect_congr rfl (fun r _ => ?_)
  have : ∀ s : Fin k → Fin drawRange, atResult g (randomSatLoop cnt
      (fun i => seqOf (Fin.cons r s : Fin (k + 1) → Fin drawRange) (i - level)) (k + 1) level
        ⟨neg, .node level t c e⟩) = if ft + fe ≠ 0 ∧ (r.val : ℚ) / randMax ≤ ft / (ft + fe)
        then atResult (fun l => g (1 :: l)) (randomSatLoop cnt (fun i => seqOf s (i - (level + 1))) k (level + 1) ⟨neg, t⟩)
        else atResult (fun l => g (0 :: l)) (randomSatLoop cnt (fun i => seqOf s (i - (level + 1))) k (level + 1) ⟨neg ^^ c, e⟩) := by
    intro s
    rw [randomSatLoop, if_neg (lt_irrefl _), ht, he]
    simp only [Nat.sub_self, seqOf_cons_zero]
    split
    · rw [atResult_bind_cons, walk_shift]
    · rw [atResult_bind_cons, walk_shift]
  rw [Finset.expect_congr rfl (fun s _ => this s)]
  split <;> rfl

theorem extFrom_cons_self (level k : Nat) (b : Bool) (w : Fin k → Bool) :
    extFrom level (Fin.cons b w : Fin (k + 1) → Bool) level = b := by
  simp only [extFrom]
  rw [dif_pos ⟨le_rfl, by omega⟩]
  have : (⟨level - level, by omega⟩ : Fin (k + 1)) = 0 := by ext; simp
  rw [this, Fin.cons_zero]

theorem extFrom_cons_gt (level k : Nat) (b : Bool) (w : Fin k → Bool) (v : Nat) (hv : level < v) :
    extFrom level (Fin.cons b w : Fin (k + 1) → Bool) v = extFrom (level + 1) w v := by
  simp only [extFrom]
  by_cases h : v - level < k + 1
  · rw [dif_pos ⟨hv.le, h⟩, dif_pos ⟨by omega, by omega⟩]
    have : (⟨v - level, h⟩ : Fin (k + 1)) = Fin.succ ⟨v - (level + 1), by omega⟩ := by
      ext; simp; omega
    rw [this, Fin.cons_succ]
  · rw [dif_neg (by omega), dif_neg (by omega)]

theorem expect_bool (h : Bool → ℚ) : 𝔼 b : Bool, h b = (h false + h true) / 2 := by
  rw [Fintype.expect_eq_sum_div_card, Fintype.card_bool, Fintype.sum_bool]
  push_cast; ring

theorem ofFn_cons_bool (k : Nat) (b : Bool) (w : Fin k → Bool) :
    (List.ofFn fun i => ((Fin.cons b w : Fin (k + 1) → Bool) i).toNat)
      = b.toNat :: List.ofFn (fun i => (w i).toNat) := by
  rw [List.ofFn_succ]
  simp

theorem trueMean_nonneg (k level : Nat) (a : Edge) (g : List Nat → ℚ) (hg : ∀ l, 0 ≤ g l) :
    0 ≤ trueMean k level a g :=
  Finset.expect_nonneg (fun w _ => by split <;> simp [hg])

theorem trueMean_skip (k level : Nat) (a : Edge) (g : List Nat → ℚ)
    (ha : ∀ v ∈ a.n.vars, level < v) :
    trueMean (k + 1) level a g = (trueMean k (level + 1) a (fun l => g (0 :: l)) +
      trueMean k (level + 1) a (fun l => g (1 :: l))) / 2 := by
  unfold trueMean
  rw [expect_cons, expect_bool]
  have : ∀ (b : Bool) (w : Fin k → Bool), a.eval (extFrom level (Fin.cons b w : Fin (k + 1) → Bool))
      = a.eval (extFrom (level + 1) w) := by
    intro b w
    simp only [Edge.eval]
    rw [DD.eval_congr (fun v hv => extFrom_cons_gt level k b w v (ha v hv))]
  simp only [this, ofFn_cons_bool, Bool.toNat_true, Bool.toNat_false]

theorem trueMean_node (k level : Nat) (neg c : Bool) (t e : DD) (g : List Nat → ℚ)
    (ht : ∀ v ∈ t.vars, level < v) (he : ∀ v ∈ e.vars, level < v) :
    trueMean (k + 1) level ⟨neg, .node level t c e⟩ g =
      (trueMean k (level + 1) ⟨neg ^^ c, e⟩ (fun l => g (0 :: l)) +
      trueMean k (level + 1) ⟨neg, t⟩ (fun l => g (1 :: l))) / 2 := by
  unfold trueMean
  rw [expect_cons, expect_bool]
  have h1 : ∀ (b : Bool) (w : Fin k → Bool),
      Edge.eval ⟨neg, t⟩ (extFrom level (Fin.cons b w : Fin (k + 1) → Bool))
      = Edge.eval ⟨neg, t⟩ (extFrom (level + 1) w) := by
    intro b w
    simp only [Edge.eval]
    rw [DD.eval_congr (fun v hv => extFrom_cons_gt level k b w v (ht v hv))]
  have h2 : ∀ (b : Bool) (w : Fin k → Bool),
      Edge.eval ⟨neg ^^ c, e⟩ (extFrom level (Fin.cons b w : Fin (k + 1) → Bool))
      = Edge.eval ⟨neg ^^ c, e⟩ (extFrom (level + 1) w) := by
    intro b w
    simp only [Edge.eval]
    rw [DD.eval_congr (fun v hv => extFrom_cons_gt level k b w v (he v hv))]
  simp only [Edge.eval_node, extFrom_cons_self, ofFn_cons_bool, Bool.toNat_true, Bool.toNat_false,
    Bool.false_eq_true, if_false, if_true, h1, h2]

/-- The share of the draws that take a branch is, up to the factor `1 - 2^-31`, at least the share of
the solutions in that branch, so the walk hits every set at least that often. -/
theorem walk_lower (hm : m.Mono) (cnt : NMap ℚ) : ∀ (k level : Nat) (a : Edge), a.n.WF m →
    (∀ b ∈ a.n.reach a.neg, NMap.find cnt b = some b.frac) →
    (∀ v ∈ a.n.vars, level ≤ v ∧ v < level + k) → ∀ g : List Nat → ℚ, (∀ l, 0 ≤ g l) →
    (1 - 1 / (drawRange : ℚ)) ^ k * trueMean k level a g ≤ walkMean cnt k level a g * a.frac
  | 0, level, ⟨neg, .one⟩, hwf, hc, hv, g, hg => by
    simp only [trueMean, walkMean, randomSatLoop, atResult, pow_zero, one_mul, List.ofFn_zero]
    rw [Fintype.expect_const, Fintype.expect_eq_sum_div_card]
    cases neg <;> simp [Edge.eval, DD.eval, Edge.frac, DD.frac]
  | 0, level, ⟨neg, .node v t c e⟩, hwf, hc, hv, g, hg => by
    have := hv v (by simp [DD.vars]); omega
  | k + 1, level, ⟨neg, .one⟩, hwf, hc, hv, g, hg => by
    have hδ : (0 : ℚ) ≤ 1 - 1 / drawRange ∧ (1 : ℚ) - 1 / drawRange ≤ 1 := by
      norm_num [drawRange]
    rw [walkMean_skip _ _ _ _ _ (fun rs => by rw [randomSatLoop]), trueMean_skip _ _ _ _ (by simp [DD.vars])]
    have h0 := walk_lower hm cnt k (level + 1) ⟨neg, .one⟩ hwf hc (by simp [DD.vars]) (fun l => g (0 :: l)) (fun l => hg _)
    have h1 := walk_lower hm cnt k (level + 1) ⟨neg, .one⟩ hwf hc (by simp [DD.vars]) (fun l => g (1 :: l)) (fun l => hg _)
    have t0 := trueMean_nonneg k (level + 1) ⟨neg, .one⟩ (fun l => g (0 :: l)) (fun l => hg _)
    have t1 := trueMean_nonneg k (level + 1) ⟨neg, .one⟩ (fun l => g (1 :: l)) (fun l => hg _)
    have hk := pow_nonneg hδ.1 k
    rw [pow_succ]
    have := mul_le_of_le_one_right (mul_nonneg hk (add_nonneg t0 t1)) hδ.2
    linarith
  | k + 1, level, ⟨neg, .node v t c e⟩, hwf, hc, hv, g, hg => by
    have hδ : (0 : ℚ) ≤ 1 - 1 / drawRange ∧ (1 : ℚ) - 1 / drawRange ≤ 1 := by
      norm_num [drawRange]
    have hk := pow_nonneg hδ.1 k
    have hvt := DD.Below.vars_lt hm hwf.1 hwf.2.2.1
    have hve := DD.Below.vars_lt hm hwf.2.1 hwf.2.2.2.1
    by_cases hlv : level < v
    · have hv' : ∀ w ∈ (DD.node v t c e).vars, level < w := fun w hw => by
        simp only [DD.vars, List.mem_cons, List.mem_append] at hw
        rcases hw with rfl | hw | hw
        · omega
        · have := hvt w hw; omega
        · have := hve w hw; omega
      rw [walkMean_skip _ _ _ _ _ (fun rs => by rw [randomSatLoop, if_pos hlv]), trueMean_skip _ _ _ _ hv']
      have hvv : ∀ w ∈ (DD.node v t c e).vars, level + 1 ≤ w ∧ w < level + 1 + k := fun w hw =>
        ⟨hv' w hw, by have := (hv w hw).2; omega⟩
      have h0 := walk_lower hm cnt k (level + 1) ⟨neg, .node v t c e⟩ hwf hc hvv (fun l => g (0 :: l)) (fun l => hg _)
      have h1 := walk_lower hm cnt k (level + 1) ⟨neg, .node v t c e⟩ hwf hc hvv (fun l => g (1 :: l)) (fun l => hg _)
      have t0 := trueMean_nonneg k (level + 1) ⟨neg, .node v t c e⟩ (fun l => g (0 :: l)) (fun l => hg _)
      have t1 := trueMean_nonneg k (level + 1) ⟨neg, .node v t c e⟩ (fun l => g (1 :: l)) (fun l => hg _)
      rw [pow_succ]
      have := mul_le_of_le_one_right (mul_nonneg hk (add_nonneg t0 t1)) hδ.2
      linarith
    · have hveq : v = level := by have := (hv v (by simp [DD.vars])).1; omega
      subst hveq
      have ht : NMap.find cnt ⟨neg, t⟩ = some (Edge.frac ⟨neg, t⟩) :=
        hc _ (by simp only [DD.reach, List.mem_cons, List.mem_append]
                 exact .inr (.inl (DD.self_mem_reach t neg)))
      have he : NMap.find cnt ⟨neg ^^ c, e⟩ = some (Edge.frac ⟨neg ^^ c, e⟩) :=
        hc _ (by simp only [DD.reach, List.mem_cons, List.mem_append]
                 exact .inr (.inr (DD.self_mem_reach e _)))
      have hbt := (frac_bounds (m := m) (a := ⟨neg, t⟩) hwf.1).1
      have hbe := (frac_bounds (m := m) (a := ⟨neg ^^ c, e⟩) hwf.2.1).1
      have h1 := walk_lower hm cnt k (v + 1) ⟨neg, t⟩ hwf.1 (fun b hb => hc b (by
            simp only [DD.reach, List.mem_cons, List.mem_append]; exact .inr (.inl hb)))
          (fun w hw => ⟨hvt w hw, by
            have := (hv w (by simp [DD.vars, hw])).2; omega⟩) (fun l => g (1 :: l)) (fun l => hg _)
      have h0 := walk_lower hm cnt k (v + 1) ⟨neg ^^ c, e⟩ hwf.2.1 (fun b hb => hc b (by
            simp only [DD.reach, List.mem_cons, List.mem_append]; exact .inr (.inr hb)))
          (fun w hw => ⟨hve w hw, by
            have := (hv w (by simp [DD.vars, hw])).2; omega⟩) (fun l => g (0 :: l)) (fun l => hg _)
      rw [walkMean_node _ _ _ _ _ _ _ _ _ _ ht he, trueMean_node _ _ _ _ _ _ _ hvt hve, frac_node]
      have t0 := trueMean_nonneg k (v + 1) ⟨neg ^^ c, e⟩ (fun l => g (0 :: l)) (fun l => hg _)
      have t1 := trueMean_nonneg k (v + 1) ⟨neg, t⟩ (fun l => g (1 :: l)) (fun l => hg _)
      have w0 : 0 ≤ walkMean cnt k (v + 1) ⟨neg ^^ c, e⟩ (fun l => g (0 :: l)) :=
        Finset.expect_nonneg (fun s _ => by unfold atResult; split <;> simp [hg])
      have w1 : 0 ≤ walkMean cnt k (v + 1) ⟨neg, t⟩ (fun l => g (1 :: l)) :=
        Finset.expect_nonneg (fun s _ => by unfold atResult; split <;> simp [hg])
      set T0 := trueMean k (v + 1) ⟨neg ^^ c, e⟩ (fun l => g (0 :: l))
      set T1 := trueMean k (v + 1) ⟨neg, t⟩ (fun l => g (1 :: l))
      set W0 := walkMean cnt k (v + 1) ⟨neg ^^ c, e⟩ (fun l => g (0 :: l))
      set W1 := walkMean cnt k (v + 1) ⟨neg, t⟩ (fun l => g (1 :: l))
      set ft := Edge.frac ⟨neg, t⟩
      set fe := Edge.frac ⟨neg ^^ c, e⟩
      set δ := (1 : ℚ) - 1 / drawRange
      by_cases hs : ft + fe = 0
      · have e1 : ft = 0 := by linarith
        have e2 : fe = 0 := by linarith
        rw [e1, mul_zero] at h1
        rw [e2, mul_zero] at h0
        rw [hs, zero_div, mul_zero, pow_succ]
        have := mul_nonneg hk t0
        have := mul_nonneg hk t1
        have e3 : δ ^ k * T0 = 0 := by linarith
        have e4 : δ ^ k * T1 = 0 := by linarith
        have : δ ^ k * δ * ((T0 + T1) / 2) = δ * (δ ^ k * T0 + δ ^ k * T1) / 2 := by ring
        rw [this, e3, e4]; simp
      · have hpos : 0 < ft + fe := lt_of_le_of_ne (by linarith) (Ne.symm hs)
        obtain ⟨d, hd, hd1, hd2⟩ := sum_threshold W1 W0 (ft / (ft + fe)) (div_nonneg hbt hpos.le)
          (by rw [div_le_one hpos]; linarith)
        simp only [ne_eq, hs, not_false_eq_true, true_and]
        rw [hd]
        have a1 : δ * ft ≤ d * (ft + fe) := by
          have := mul_le_mul_of_nonneg_right hd1 hpos.le
          have e : δ * (ft / (ft + fe)) * (ft + fe) = δ * ft := by field_simp
          rwa [e] at this
        have a2 : δ * fe ≤ (1 - d) * (ft + fe) := by
          have := mul_le_mul_of_nonneg_right hd2 hpos.le
          have e : δ * (1 - ft / (ft + fe)) * (ft + fe) = δ * fe := by field_simp; ring
          rwa [e] at this
        have b1 := mul_le_mul_of_nonneg_right a1 w1
        have b2 := mul_le_mul_of_nonneg_right a2 w0
        have c1 := mul_le_mul_of_nonneg_left h1 hδ.1
        have c2 := mul_le_mul_of_nonneg_left h0 hδ.1
        rw [pow_succ]
        nlinarith

/-- The walk never fails and gives one bit per level. -/
theorem randomSatLoop_bits (hm : m.Mono) (cnt : NMap ℚ) (rs : Nat → Nat) :
    ∀ (k level : Nat) (a : Edge), a.n.WF m →
    (∀ b ∈ a.n.reach a.neg, NMap.find cnt b = some b.frac) →
    ∃ l, randomSatLoop cnt rs k level a = .ok l ∧ l.length = k ∧ ∀ b ∈ l, b < 2
  | 0, level, a, hwf, hc => ⟨[], by simp [randomSatLoop], rfl, by simp⟩
  | k + 1, level, ⟨neg, .one⟩, hwf, hc => by
    obtain ⟨l, hl, hlen, hb⟩ := randomSatLoop_bits hm cnt rs k (level + 1) ⟨neg, .one⟩ hwf hc
    exact ⟨rs level % 2 :: l, by simp [randomSatLoop, hl, bind, Except.bind], by simp [hlen],
      fun b hb' => by
        rcases List.mem_cons.mp hb' with rfl | h
        · omega
        · exact hb b h⟩
  | k + 1, level, ⟨neg, .node v t c e⟩, hwf, hc => by
    have ht : NMap.find cnt ⟨neg, t⟩ = some (Edge.frac ⟨neg, t⟩) :=
      hc _ (by simp only [DD.reach, List.mem_cons, List.mem_append]
               exact .inr (.inl (DD.self_mem_reach t neg)))
    have he : NMap.find cnt ⟨neg ^^ c, e⟩ = some (Edge.frac ⟨neg ^^ c, e⟩) :=
      hc _ (by simp only [DD.reach, List.mem_cons, List.mem_append]
               exact .inr (.inr (DD.self_mem_reach e _)))
    have key : ∀ (b : Nat) (a : Edge), b < 2 → a.n.WF m →
        (∀ b ∈ a.n.reach a.neg, NMap.find cnt b = some b.frac) →
        ∃ l, (randomSatLoop cnt rs k (level + 1) a >>= fun l => .ok (b :: l)) = .ok l ∧ l.length = k + 1 ∧
          ∀ b ∈ l, b < 2 := by
      intro b a hb2 hwf hc
      obtain ⟨l, hl, hlen, hb⟩ := randomSatLoop_bits hm cnt rs k (level + 1) a hwf hc
      exact ⟨b :: l, by simp [hl, bind, Except.bind], by simp [hlen], fun b hb' => by
        rcases List.mem_cons.mp hb' with rfl | h
        · omega
        · exact hb b h⟩
    rw [randomSatLoop]
    split
    · exact key _ _ (by omega) hwf hc
    · rw [ht, he]
      simp only
      split
      · exact key _ _ (by omega) hwf.1 (fun b hb => hc b (by
            simp only [DD.reach, List.mem_cons, List.mem_append]; exact .inr (.inl hb)))
      · exact key _ _ (by omega) hwf.2.1 (fun b hb => hc b (by
            simp only [DD.reach, List.mem_cons, List.mem_append]; exact .inr (.inr hb)))

end Verif

import Verif.Model.Helper
import Verif.Proofs.Support

/-!
# `minimization_helper.cpp`
-/

namespace Verif

variable {m : Mgr}

theorem metricDims_eq (ds : List SimpleMetricDim) :
    metricDims (m := m) ds = ds.map (fun d => ⟨d.gridSize, metricFunction d.metric, d.bound⟩) := by
  induction ds with
  | nil => rfl
  | cons d ds ih => rw [metricDims, ih]; rfl

theorem metricDims_grid (ds : List SimpleMetricDim) :
    (metricDims (m := m) ds).map (·.gridSize) = ds.map (·.gridSize) := by
  rw [metricDims_eq, List.map_map]
  rfl

theorem minBucketLoop_spec (b : Bucket m) (bs : List (Bucket m)) :
    minBucketLoop b bs ∈ b :: bs ∧ ∀ c ∈ b :: bs, (minBucketLoop b bs).bddSize ≤ c.bddSize := by
  induction bs generalizing b with
  | nil => simp [minBucketLoop]
  | cons c cs ih =>
    unfold minBucketLoop
    split
    · rename_i hlt
      obtain ⟨h1, h2⟩ := ih c
      refine ⟨List.mem_cons_of_mem _ h1, fun d hd => ?_⟩
      rcases List.mem_cons.mp hd with rfl | hd
      · exact le_trans (h2 c (by simp)) (le_of_lt hlt)
      · exact h2 d hd
    · rename_i hle
      obtain ⟨h1, h2⟩ := ih b
      refine ⟨?_, fun d hd => ?_⟩
      · rcases List.mem_cons.mp h1 with h1 | h1
        · rw [h1]; simp
        · simp [h1]
      · rcases List.mem_cons.mp hd with rfl | hd
        · exact h2 _ (by simp)
        · rcases List.mem_cons.mp hd with rfl | hd
          · exact le_trans (h2 b (by simp)) (by omega)
          · exact h2 d (by simp [hd])

theorem operatorFunctions_narrows {f : List (BDD m)} {info : MinimizationInfo} {rs : Nat → Nat}
    {ops : List (OpFun m)} (h : operatorFunctions f info rs = .ok ops) :
    ∀ op ∈ ops, OpNarrows op := by
  unfold operatorFunctions at h
  intro F hF
  split at h
  · cases h
    simp only [generateSingleBddOperators, List.mem_flatMap, List.mem_map] at hF
    obtain ⟨i, -, j, -, op, -, rfl⟩ := hF
    exact applyOperatorAt_narrows i j op
  · cases h
    simp only [generateMultiBddOperators, List.mem_flatMap, List.mem_map] at hF
    obtain ⟨j, -, op, -, rfl⟩ := hF
    exact applyOperatorAll_narrows op j j
  · split at h
    · obtain ⟨op, -, j, rfl⟩ := generateRandom_mem h F hF
      exact applyOperatorAll_narrows op j j
    · cases h

/-- The operators made for `f` are defined on all vectors with as many bits. -/
theorem operatorFunctions_total {f : List (BDD m)} {info : MinimizationInfo} {rs : Nat → Nat}
    {ops : List (OpFun m)} (h : operatorFunctions f info rs = .ok ops) :
    ∀ op ∈ ops, ∀ g : List (BDD m), g.length = f.length → ∃ r, op g = .ok r := by
  unfold operatorFunctions at h
  intro F hF g hg
  split at h
  · cases h
    simp only [generateSingleBddOperators, List.mem_flatMap, List.mem_map, List.mem_range] at hF
    obtain ⟨i, hi, j, -, op, -, rfl⟩ := hF
    obtain ⟨b', -, e⟩ := applyOperatorAt_spec j op
      (List.getElem?_eq_getElem (show i < g.length by omega))
    exact ⟨_, e⟩
  · cases h
    simp only [generateMultiBddOperators, List.mem_flatMap, List.mem_map] at hF
    obtain ⟨j, -, op, -, rfl⟩ := hF
    exact let ⟨r, e, _⟩ := applyOperatorAll_spec op j j g; ⟨r, e⟩
  · split at h
    · obtain ⟨op, -, j, rfl⟩ := generateRandom_mem h F hF
      exact let ⟨r, e, _⟩ := applyOperatorAll_spec op j j g; ⟨r, e⟩
    · cases h

theorem terminalLevel_single_pos {f : List (BDD m)} (h : f ≠ []) : 0 < terminalLevel [f] := by
  obtain ⟨b, bs, rfl⟩ := List.exists_cons_of_ne_nil h
  rw [terminalLevel_eq]
  have h1 := (foldl_max_spec ([b :: bs].flatten.map bddTop) 0).2.1 (bddTop b) (by simp)
  have h3 : bddTop b = b.supportIndices.foldl max 0 + 1 := rfl
  omega

theorem absErrAt_range {f g : List (BDD m)} (hl : f.length = g.length) (x : Asg) :
    0 ≤ absErrAt f g x ∧ absErrAt f g x ≤ 2 ^ f.length - 1 := by
  have h1 := uAt_lt f x
  have h2 := uAt_lt g x
  rw [← hl] at h2
  unfold absErrAt
  refine ⟨by positivity, ?_⟩
  have : |(uAt f x : Int) - uAt g x| ≤ 2 ^ f.length - 1 := by
    rw [abs_le]
    constructor <;> zify at h1 h2 <;> omega
  exact_mod_cast this

theorem hamming_le_length : ∀ a b : List Bool, hamming a b ≤ a.length
  | [], _ => by simp [hamming]
  | _ :: _, [] => by simp [hamming]
  | a :: as, b :: bs => by
    have := hamming_le_length as bs
    have : (a ^^ b).toNat ≤ 1 := by cases a <;> cases b <;> simp
    simp only [hamming, List.length_cons]
    omega

theorem isMax_range {g : Asg → ℚ} {q a b : ℚ} (h : IsMax g q) (hg : ∀ x, a ≤ g x ∧ g x ≤ b) :
    a ≤ q ∧ q ≤ b := by
  obtain ⟨⟨x, rfl⟩, -⟩ := h
  exact hg x

theorem mean_range {N : Nat} {g : Asg → ℚ} {b : ℚ} (hg : ∀ x, 0 ≤ g x ∧ g x ≤ b) :
    0 ≤ mean N g ∧ mean N g ≤ b := by
  unfold mean
  constructor
  · exact div_nonneg (Finset.sum_nonneg (fun a _ => (hg _).1)) (by positivity)
  · rw [div_le_iff₀ (by positivity)]
    calc ∑ a : Fin N → Bool, g (ext a) ≤ ∑ _a : Fin N → Bool, b :=
          Finset.sum_le_sum (fun a _ => (hg _).2)
      _ = b * 2 ^ N := by
        rw [Finset.sum_const, Finset.card_univ]
        simp [mul_comm]

/-- An upper limit for the errors of functions with `n` bits. -/
def metricCap (n : Nat) : ErrorMetric → ℚ
  | .worstCasePercent | .errorRate => 1
  | .averageBitFlip | .worstCaseBitFlip => n
  | _ => 2 ^ n

/-- Errors other than the mean squared error lie between 0 and the limit. -/
theorem isMetric_range {N : Nat} {f g : List (BDD m)} (hl : f.length = g.length) {met : ErrorMetric}
    {q : ℚ} (hne : met ≠ .meanSquared) (h : IsMetric N f g met q) : 0 ≤ q ∧ q ≤ metricCap f.length met := by
  have habs : ∀ x, 0 ≤ absErrAt f g x ∧ absErrAt f g x ≤ 2 ^ f.length := fun x =>
    ⟨(absErrAt_range hl x).1, le_trans (absErrAt_range hl x).2 (by linarith)⟩
  have h1 : (1 : ℚ) ≤ 2 ^ f.length := one_le_pow₀ (by norm_num)
  have hrel : ∀ x, 0 ≤ relErrAt .baseTwo f g x ∧ relErrAt .baseTwo f g x ≤ 2 ^ f.length := by
    intro x
    have hpos : (0 : ℚ) < max 1 ((|valAt .baseTwo f x| : Int) : ℚ) := lt_of_lt_of_le one_pos (le_max_left _ _)
    refine ⟨div_nonneg (habs x).1 hpos.le, ?_⟩
    unfold relErrAt
    rw [div_le_iff₀ hpos]
    refine le_trans (habs x).2 ?_
    exact le_mul_of_one_le_right (by positivity) (le_max_left _ _)
  have hham : ∀ x, 0 ≤ ((hamming (bitsAt f x) (bitsAt g x) : Nat) : ℚ) ∧
      ((hamming (bitsAt f x) (bitsAt g x) : Nat) : ℚ) ≤ f.length := by
    intro x
    refine ⟨by positivity, ?_⟩
    have h2 := hamming_le_length (bitsAt f x) (bitsAt g x)
    rw [show (bitsAt f x).length = f.length by simp [bitsAt]] at h2
    exact_mod_cast h2
  cases met with
  | worstCase => exact isMax_range h habs
  | worstCasePercent =>
    refine isMax_range h (a := 0) (b := 1) (fun x => ?_)
    have h2 := absErrAt_range hl x
    have h0 : (0 : ℚ) ≤ 2 ^ f.length - 1 := by linarith
    exact ⟨div_nonneg h2.1 h0, div_le_one_of_le₀ h2.2 h0⟩
  | worstCaseRelative => exact isMax_range h hrel
  | averageCase => rw [show q = _ from h]; exact mean_range habs
  | averageCaseRelative => rw [show q = _ from h]; exact mean_range hrel
  | averageCaseRelativeAdd => rw [show q = _ from h]; exact mean_range hrel
  | meanSquared => exact absurd rfl hne
  | errorRate =>
    rw [show q = _ from h]
    refine mean_range (b := 1) (fun x => ?_)
    split <;> norm_num
  | averageBitFlip => rw [show q = _ from h]; exact mean_range hham
  | worstCaseBitFlip => exact isMax_range h hham

theorem toInt_nonneg {q : ℚ} (h0 : 0 ≤ q) (h1 : q < 2 ^ 31) :
    ∃ k : Nat, toInt q = .ok (k : Int) ∧ (k : ℚ) ≤ q ∧ q < k + 1 := by
  refine ⟨⌊q⌋.toNat, ?_, ?_, ?_⟩
  · have h2 : 0 ≤ ⌊q⌋ := Int.floor_nonneg.mpr h0
    have h3 : ⌊q⌋ < 2 ^ 31 := Int.floor_lt.mpr (by exact_mod_cast h1)
    unfold toInt
    rw [if_pos h0]
    dsimp only
    rw [if_neg (by omega), Int.toNat_of_nonneg h2]
  · have h2 : 0 ≤ ⌊q⌋ := Int.floor_nonneg.mpr h0
    have h3 := Int.floor_le q
    have : ((⌊q⌋.toNat : Int) : ℚ) = (⌊q⌋ : ℚ) := by rw [Int.toNat_of_nonneg h2]
    rw [Int.cast_natCast] at this
    rw [this]
    exact h3
  · have h2 : 0 ≤ ⌊q⌋ := Int.floor_nonneg.mpr h0
    have h3 := Int.lt_floor_add_one q
    have : ((⌊q⌋.toNat : Int) : ℚ) = (⌊q⌋ : ℚ) := by rw [Int.toNat_of_nonneg h2]
    rw [Int.cast_natCast] at this
    rw [this]
    exact h3

theorem toInt_big {q : ℚ} (h : 2 ^ 31 ≤ q) : toInt q = .error .ub := by
  unfold toInt
  rw [if_pos (le_trans (by positivity) h)]
  dsimp only
  rw [if_pos (.inr (Int.le_floor.mpr (by exact_mod_cast h)))]

theorem intToString_nat (k : Nat) : intToString k = Nat.toDigits 10 k := by
  unfold intToString
  rw [if_neg (by omega), Int.natAbs_natCast]

end Verif

import Verif.Model.Float
import Verif.Proofs.Operators
import Verif.Proofs.Nodes
import Mathlib.Data.Int.Log
import Mathlib.Data.Set.Finite.Lemmas
import Mathlib.Data.Int.Interval
import Mathlib.Data.Set.Finite.Lattice
import Mathlib.Algebra.Order.Field.Power
import Mathlib.Tactic.Positivity
import Mathlib.Algebra.Order.Round

/-!
# Lemmas about counting with rounding
-/

namespace Verif

variable {m : Mgr} {rnd : ℚ → ℚ}

theorem isDouble_div (k : ℤ) (j : Nat) (hk : |k| ≤ 2 ^ 53) (hj : j ≤ 1074) : IsDouble ((k : ℚ) / 2 ^ j) :=
  ⟨k, -(j : ℤ), hk, by omega, by omega, by rw [zpow_neg, zpow_natCast]; rfl⟩

theorem isDouble_nat_div (k j : Nat) (hk : k ≤ 2 ^ 53) (hj : j ≤ 1074) : IsDouble ((k : ℚ) / 2 ^ j) := by
  have := isDouble_div k j (by rw [Nat.abs_cast]; exact_mod_cast hk) hj
  simpa using this

theorem isDouble_nat (k : Nat) (hk : k ≤ 2 ^ 53) : IsDouble (k : ℚ) := by
  have := isDouble_nat_div k 0 hk (by omega)
  simpa using this

theorem isDouble_zero : IsDouble 0 := by simpa using isDouble_nat 0 (by norm_num)
theorem isDouble_one : IsDouble 1 := by simpa using isDouble_nat 1 (by norm_num)

theorem isDouble_half {q : ℚ} (hq : IsDouble q) (h : 1 / 2 ^ 1021 ≤ q) : IsDouble (q / 2) := by
  obtain ⟨k, e, h1, h2, h3, rfl⟩ := hq
  by_cases he : e = -1074
  · subst he
    have hk : (2 : ℚ) ^ 53 ≤ k := by
      have e1 : (1 : ℚ) / 2 ^ 1021 = 2 ^ 53 * (2 : ℚ) ^ (-1074 : ℤ) := by
        rw [zpow_neg, show (1074 : ℤ) = ((1074 : Nat) : ℤ) by norm_num, zpow_natCast,
          show 1074 = 53 + 1021 by norm_num, pow_add]
        field_simp
      rw [e1] at h
      exact le_of_mul_le_mul_right h (zpow_pos (by norm_num) _)
    have hk' : k = 2 ^ 53 := by
      have a1 : (2 : ℤ) ^ 53 ≤ k := by exact_mod_cast hk
      have a2 := le_trans (le_abs_self k) h1
      omega
    refine ⟨1, -1022, by norm_num, by norm_num, by norm_num, ?_⟩
    rw [hk']
    rw [show (-1074 : ℤ) = -1022 + (-52) by norm_num, zpow_add₀ (by norm_num)]
    generalize (2 : ℚ) ^ (-1022 : ℤ) = z
    norm_num
    ring
  · refine ⟨k, e - 1, h1, by omega, by omega, ?_⟩
    rw [zpow_sub₀ (by norm_num), zpow_one]
    ring

theorem Nearest.exact (h : Nearest rnd) {q : ℚ} (hq : IsDouble q) (hb : |q| ≤ 2 ^ 1023) : rnd q = q := by
  have := h.near q q hb hq
  rw [sub_self, abs_zero] at this
  exact sub_eq_zero.mp (abs_eq_zero.mp (le_antisymm this (abs_nonneg _)))

theorem two_le_big : (2 : ℚ) ≤ 2 ^ 1023 := by
  calc (2 : ℚ) = 2 ^ 1 := (pow_one _).symm
    _ ≤ 2 ^ 1023 := pow_le_pow_right₀ (by norm_num) (by norm_num)

theorem Nearest.exact' (h : Nearest rnd) {q : ℚ} (hq : IsDouble q) (h0 : 0 ≤ q) (h1 : q ≤ 2) : rnd q = q :=
  h.exact hq (by rw [abs_of_nonneg h0]; exact h1.trans two_le_big)

theorem Nearest.nonneg (h : Nearest rnd) {q : ℚ} (h0 : 0 ≤ q) (hb : q ≤ 2 ^ 1023) : 0 ≤ rnd q := by
  have := h.near q 0 (by rwa [abs_of_nonneg h0]) isDouble_zero
  rw [zero_sub, abs_neg, abs_of_nonneg h0, abs_le] at this
  linarith

theorem Nearest.le_one (h : Nearest rnd) {q : ℚ} (h0 : 0 ≤ q) (hb : q ≤ 1) : rnd q ≤ 1 := by
  have := h.near q 1 (by rw [abs_of_nonneg h0]; exact hb.trans ((by norm_num : (1 : ℚ) ≤ 2).trans two_le_big))
    isDouble_one
  rw [abs_of_nonneg (by linarith : (0 : ℚ) ≤ 1 - q), abs_le] at this
  linarith

/-- The relative error of one operation. -/
theorem Nearest.rel (h : Nearest rnd) {q : ℚ} (h0 : 1 / 2 ^ 1022 ≤ q) (hb : q ≤ 2 ^ 1022) :
    |rnd q - q| ≤ q * (1 / 2 ^ 53) := by
  have hpos : (0 : ℚ) < q := lt_of_lt_of_le (by positivity) h0
  set e := Int.log 2 q with he
  have h1 : (2 : ℚ) ^ e ≤ q := by
    have := Int.zpow_log_le_self (b := 2) (r := q) (by norm_num) hpos
    simpa using this
  have h2 : q < (2 : ℚ) ^ (e + 1) := by
    have := Int.lt_zpow_succ_log_self (b := 2) (by norm_num) q
    simpa using this
  have e1 : -1022 ≤ e := by
    have : (2 : ℚ) ^ (-1022 : ℤ) < 2 ^ (e + 1) := by
      refine lt_of_le_of_lt ?_ h2
      rw [zpow_neg, show (1022 : ℤ) = ((1022 : Nat) : ℤ) by norm_num, zpow_natCast, ← one_div]
      exact h0
    have := (zpow_lt_zpow_iff_right₀ (by norm_num : (1 : ℚ) < 2)).mp this
    omega
  have e2 : e ≤ 1022 := by
    have : (2 : ℚ) ^ e ≤ 2 ^ (1022 : ℤ) := by
      refine h1.trans ?_
      rw [show (1022 : ℤ) = ((1022 : Nat) : ℤ) by norm_num, zpow_natCast]
      exact hb
    exact (zpow_le_zpow_iff_right₀ (by norm_num : (1 : ℚ) < 2)).mp this
  have hs : (0 : ℚ) < 2 ^ (e - 52) := zpow_pos (by norm_num) _
  set k := round (q / 2 ^ (e - 52)) with hk
  have hr : |q / 2 ^ (e - 52) - k| ≤ 1 / 2 := abs_sub_round _
  have hq2 : q / 2 ^ (e - 52) < 2 ^ 53 := by
    rw [div_lt_iff₀ hs]
    refine lt_of_lt_of_eq h2 ?_
    rw [show ((2 : ℚ) ^ 53) = 2 ^ (53 : ℤ) by norm_num, ← zpow_add₀ (by norm_num), show (53 : ℤ) + (e - 52) = e + 1 by ring]
  have hk0 : 0 ≤ k := by
    have : (-1 : ℚ) < k := by
      have := (abs_le.mp hr).2
      have : (0 : ℚ) ≤ q / 2 ^ (e - 52) := by positivity
      linarith
    have : (-1 : ℤ) < k := by exact_mod_cast this
    omega
  have hk1 : k ≤ 2 ^ 53 := by
    have : (k : ℚ) < 2 ^ 53 + 1 := by
      have := (abs_le.mp hr).1
      linarith
    have : k < 2 ^ 53 + 1 := by exact_mod_cast this
    omega
  have hd : IsDouble (k * 2 ^ (e - 52)) := ⟨k, e - 52, by rwa [abs_of_nonneg hk0], by omega, by omega, rfl⟩
  have hbig : |q| ≤ 2 ^ 1023 := by
    rw [abs_of_pos hpos]
    exact hb.trans (pow_le_pow_right₀ (by norm_num) (by norm_num))
  refine (h.near q _ hbig hd).trans ?_
  have e3 : (k : ℚ) * 2 ^ (e - 52) - q = -((q / 2 ^ (e - 52) - k) * 2 ^ (e - 52)) := by
    rw [sub_mul, div_mul_cancel₀ _ hs.ne']
    ring
  rw [e3, abs_neg, abs_mul, abs_of_pos hs]
  calc |q / 2 ^ (e - 52) - k| * 2 ^ (e - 52) ≤ 1 / 2 * 2 ^ (e - 52) := mul_le_mul_of_nonneg_right hr hs.le
    _ = 2 ^ e * (1 / 2 ^ 53) := by
      rw [zpow_sub₀ (by norm_num)]
      norm_num
      ring
    _ ≤ q * (1 / 2 ^ 53) := mul_le_mul_of_nonneg_right h1 (by positivity)

/-- There are such roundings. -/
theorem exists_nearest : ∃ rnd, Nearest rnd := by
  have hfin : {q : ℚ | IsDouble q}.Finite := by
    have : {q : ℚ | IsDouble q} ⊆ (fun p : ℤ × ℤ => (p.1 : ℚ) * 2 ^ p.2) ''
        (Set.Icc (-2 ^ 53) (2 ^ 53) ×ˢ Set.Icc (-1074) 970) := by
      rintro q ⟨k, e, h1, h2, h3, rfl⟩
      exact ⟨(k, e), ⟨abs_le.mp h1, h2, h3⟩, rfl⟩
    exact (((Set.finite_Icc _ _).prod (Set.finite_Icc _ _)).image _).subset this
  have key : ∀ q : ℚ, ∃ d, IsDouble d ∧ ∀ d', IsDouble d' → |d - q| ≤ |d' - q| := fun q => by
    obtain ⟨d, hd, h⟩ := Set.exists_min_image _ (fun d => |d - q|) hfin ⟨0, isDouble_zero⟩
    exact ⟨d, hd, h⟩
  choose f hf using key
  exact ⟨f, fun q _ => (hf q).1, fun q d _ hd => (hf q).2 d hd⟩

/-- Number of variables on the longest path. -/
def DD.height : DD → Nat
  | .one => 0
  | .node _ t _ e => max t.height e.height + 1

theorem DD.height_le_card {d : DD} (hwf : d.WF m) : d.height ≤ d.vars.toFinset.card := by
  induction d with
  | one => simp [DD.height]
  | node v t c e iht ihe =>
    have key : ∀ {s : DD}, s.WF m → s.Below m (m.lvl v) → s.height ≤ s.vars.toFinset.card →
        s.vars ⊆ (DD.node v t c e).vars → s.height + 1 ≤ (DD.node v t c e).vars.toFinset.card := by
      intro s hs hb hh hsub
      have hv : v ∉ s.vars.toFinset := by
        rw [List.mem_toFinset]
        intro hv
        exact absurd (hb.vars hs v hv) (lt_irrefl _)
      have : (insert v s.vars.toFinset).card = s.vars.toFinset.card + 1 := Finset.card_insert_of_notMem hv
      have hle : insert v s.vars.toFinset ⊆ (DD.node v t c e).vars.toFinset := by
        intro w hw
        rw [Finset.mem_insert, List.mem_toFinset] at hw
        rw [List.mem_toFinset]
        rcases hw with rfl | hw
        · simp [DD.vars]
        · exact hsub hw
      have := Finset.card_le_card hle
      omega
    have h1 := key hwf.1 hwf.2.2.1 (iht hwf.1) (fun w hw => by simp [DD.vars, hw])
    have h2 := key hwf.2.1 hwf.2.2.2.1 (ihe hwf.2.1) (fun w hw => by simp [DD.vars, hw])
    simp only [DD.height]
    omega

theorem BDD.height_le (f : BDD m) : f.edge.n.height ≤ f.supportSize := by
  have := DD.height_le_card f.wf
  rwa [List.card_toFinset] at this

theorem DD.reach_height {d : DD} {neg : Bool} {a : Edge} (h : a ∈ d.reach neg) : a.n.height ≤ d.height := by
  induction d generalizing neg with
  | one =>
    simp only [DD.reach, List.mem_singleton] at h
    subst h
    exact le_rfl
  | node v t c e iht ihe =>
    simp only [DD.reach, List.mem_cons, List.mem_append] at h
    simp only [DD.height]
    rcases h with rfl | h | h
    · exact le_rfl
    · have := iht h
      omega
    · have := ihe h
      omega

/-- The fractions are dyadic. -/
theorem frac_dyadic (d : DD) (neg : Bool) {h : Nat} (hh : d.height ≤ h) :
    ∃ k : Nat, k ≤ 2 ^ h ∧ Edge.frac ⟨neg, d⟩ = k / 2 ^ h := by
  induction d generalizing neg h with
  | one =>
    cases neg
    · exact ⟨2 ^ h, le_rfl, by simp [Edge.frac, DD.frac]⟩
    · exact ⟨0, Nat.zero_le _, by simp [Edge.frac, DD.frac]⟩
  | node v t c e iht ihe =>
    simp only [DD.height] at hh
    obtain ⟨h', rfl⟩ : ∃ h', h = h' + 1 := ⟨h - 1, by omega⟩
    obtain ⟨k, hk, e1⟩ := iht neg (h := h') (by omega)
    obtain ⟨l, hl, e2⟩ := ihe (neg ^^ c) (h := h') (by omega)
    refine ⟨k + l, by rw [pow_succ]; omega, ?_⟩
    rw [frac_node, e1, e2]
    push_cast
    rw [pow_succ]
    field_simp

/-- Step of `count_minterms_rec` with rounding. -/
def mintermStepF (rnd : ℚ → ℚ) : Nat → DD → DD → ℚ → ℚ → ℚ := fun _ _ _ h l => rnd (rnd (h / 2) + rnd (l / 2))

/-- Step of `count_solutions_rec` with rounding. -/
def solutionStepF (rnd : ℚ → ℚ) (tl : Nat) : Nat → DD → DD → ℚ → ℚ → ℚ := fun v t e h l =>
  rnd (rnd (h * 2 ^ ((nodeLevel tl t + 2 ^ 64 - v - 1) % 2 ^ 64)) +
    rnd (l * 2 ^ ((nodeLevel tl e + 2 ^ 64 - v - 1) % 2 ^ 64)))

theorem countMintermsRecF_eq (rnd : ℚ → ℚ) : ∀ (d : DD) (neg : Bool) (mp : NMap ℚ),
    countMintermsRecF rnd d neg mp = memoRec (mintermStepF rnd) d neg mp := by
  intro d
  induction d with
  | one => intro neg mp; rfl
  | node v t c e iht ihe =>
    intro neg mp
    simp only [countMintermsRecF, memoRec, iht, ihe, mintermStepF]
    cases NMap.find mp ⟨neg, .node v t c e⟩ <;> rfl

theorem countSolutionsRecF_eq (rnd : ℚ → ℚ) (tl : Nat) : ∀ (d : DD) (neg : Bool) (mp : NMap ℚ),
    countSolutionsRecF rnd tl d neg mp = memoRec (solutionStepF rnd tl) d neg mp := by
  intro d
  induction d with
  | one => intro neg mp; rfl
  | node v t c e iht ihe =>
    intro neg mp
    simp only [countSolutionsRecF, memoRec, iht, ihe, solutionStepF]
    cases NMap.find mp ⟨neg, .node v t c e⟩ <;> rfl

/-- The rounded count, without the memo table. -/
def fracF (rnd : ℚ → ℚ) (a : Edge) : ℚ := memoPure (mintermStepF rnd) a.n a.neg

theorem countMintermsF_find (rnd : ℚ → ℚ) (f : BDD m) {a : Edge} (ha : a ∈ f.edge.n.reach f.edge.neg) :
    NMap.find (countMintermsF rnd f) a = some (fracF rnd a) := by
  unfold countMintermsF
  rw [countMintermsRecF_eq]
  obtain ⟨_, h2, h3, _⟩ := memoRec_spec (mintermStepF rnd) f.edge.n f.edge.neg [] (memoOk_nil _)
  obtain ⟨q, hq⟩ := Option.isSome_iff_exists.mp (h3 a ha)
  rw [hq]
  have := h2.val a.neg a.n q hq
  rw [this]
  rfl

/-- Equal steps at the values that occur give equal runs. -/
theorem memoRec_congr (step step' : Nat → DD → DD → ℚ → ℚ → ℚ) (d : DD) (neg : Bool) (mp : NMap ℚ)
    (hm : MemoOk (memoPure step) mp)
    (h : ∀ neg' v t c e, (⟨neg', .node v t c e⟩ : Edge) ∈ d.reach neg →
      step' v t e (memoPure step t neg') (memoPure step e (neg' ^^ c)) =
        step v t e (memoPure step t neg') (memoPure step e (neg' ^^ c))) :
    memoRec step' d neg mp = memoRec step d neg mp := by
  induction d generalizing neg mp with
  | one => rfl
  | node v t c e iht ihe =>
    have ht := iht neg mp hm (fun neg' v' t' c' e' hr => h neg' v' t' c' e' (reach_then hr))
    obtain ⟨s1, s2, -, -⟩ := memoRec_spec step t neg mp hm
    have he := ihe (neg ^^ c) (memoRec step t neg mp).2 s2
      (fun neg' v' t' c' e' hr => h neg' v' t' c' e' (reach_else hr))
    obtain ⟨r1, r2, -, -⟩ := memoRec_spec step e (neg ^^ c) (memoRec step t neg mp).2 s2
    have := h neg v t c e (by simp [DD.reach])
    simp only [memoRec, ht, he, s1, r1, this]

theorem fracF_node (rnd : ℚ → ℚ) (neg c : Bool) (v : Nat) (t e : DD) : fracF rnd ⟨neg, .node v t c e⟩ =
    rnd (rnd (fracF rnd ⟨neg, t⟩ / 2) + rnd (fracF rnd ⟨neg ^^ c, e⟩ / 2)) := rfl

/-- Up to 53 levels nothing is rounded. -/
theorem minterm_exact (h : Nearest rnd) {neg c : Bool} {v : Nat} {t e : DD}
    (hh : (DD.node v t c e).height ≤ 53) :
    mintermStepF rnd v t e (Edge.frac ⟨neg, t⟩) (Edge.frac ⟨neg ^^ c, e⟩) =
      mintermStep v t e (Edge.frac ⟨neg, t⟩) (Edge.frac ⟨neg ^^ c, e⟩) := by
  simp only [DD.height] at hh
  obtain ⟨k, hk, e1⟩ := frac_dyadic t neg (h := 52) (by omega)
  obtain ⟨l, hl, e2⟩ := frac_dyadic e (neg ^^ c) (h := 52) (by omega)
  have hk' : (k : ℚ) ≤ 2 ^ 52 := by exact_mod_cast hk
  have hl' : (l : ℚ) ≤ 2 ^ 52 := by exact_mod_cast hl
  have half : ∀ k : Nat, (k : ℚ) / 2 ^ 52 / 2 = k / 2 ^ 53 := fun k => by
    rw [div_div, ← pow_succ]
  have hd : ∀ k : Nat, k ≤ 2 ^ 53 → rnd ((k : ℚ) / 2 ^ 53) = k / 2 ^ 53 := fun k hk => by
    refine h.exact' (isDouble_nat_div k 53 hk (by omega)) (by positivity) ?_
    rw [div_le_iff₀ (by positivity)]
    have : (k : ℚ) ≤ 2 ^ 53 := by exact_mod_cast hk
    linarith
  rw [mintermStepF, mintermStep, e1, e2, half, half, hd k (by omega), hd l (by omega), ← add_div]
  have := hd (k + l) (by omega)
  push_cast at this
  exact this

theorem countMintermsF_eq (h : Nearest rnd) (f : BDD m) (hs : f.edge.n.height ≤ 53) :
    countMintermsF rnd f = countMinterms f := by
  unfold countMintermsF countMinterms
  rw [countMintermsRecF_eq, countMintermsRec_eq, memoRec_congr mintermStep _ _ _ _ (memoOk_nil _)]
  intro neg' v t c e hr
  rw [mintermPure_eq, mintermPure_eq]
  exact minterm_exact h ((DD.reach_height hr).trans hs)

/-- The rounded count is a `double` between 0 and 1. -/
theorem fracF_range (h : Nearest rnd) (d : DD) (neg : Bool) :
    IsDouble (fracF rnd ⟨neg, d⟩) ∧ 0 ≤ fracF rnd ⟨neg, d⟩ ∧ fracF rnd ⟨neg, d⟩ ≤ 1 := by
  induction d generalizing neg with
  | one => cases neg <;> simp [fracF, memoPure, isDouble_one, isDouble_zero]
  | node v t c e iht ihe =>
    obtain ⟨-, t0, t1⟩ := iht neg
    obtain ⟨-, e0, e1⟩ := ihe (neg ^^ c)
    rw [fracF_node]
    have big : ∀ {q : ℚ}, q ≤ 2 → q ≤ 2 ^ 1023 := fun hq => hq.trans two_le_big
    have ht : 0 ≤ rnd (fracF rnd ⟨neg, t⟩ / 2) ∧ rnd (fracF rnd ⟨neg, t⟩ / 2) ≤ 1 / 2 := by
      refine ⟨h.nonneg (by linarith) (big (by linarith)), ?_⟩
      have hd : IsDouble (1 / 2) := by simpa using isDouble_nat_div 1 1 (by norm_num) (by norm_num)
      have := h.near (fracF rnd ⟨neg, t⟩ / 2) (1 / 2) (by rw [abs_of_nonneg (by linarith)]; exact big (by linarith)) hd
      rw [abs_of_nonneg (by linarith : (0 : ℚ) ≤ 1 / 2 - fracF rnd ⟨neg, t⟩ / 2), abs_le] at this
      linarith
    have he : 0 ≤ rnd (fracF rnd ⟨neg ^^ c, e⟩ / 2) ∧ rnd (fracF rnd ⟨neg ^^ c, e⟩ / 2) ≤ 1 / 2 := by
      refine ⟨h.nonneg (by linarith) (big (by linarith)), ?_⟩
      have hd : IsDouble (1 / 2) := by simpa using isDouble_nat_div 1 1 (by norm_num) (by norm_num)
      have := h.near (fracF rnd ⟨neg ^^ c, e⟩ / 2) (1 / 2) (by rw [abs_of_nonneg (by linarith)]; exact big (by linarith)) hd
      rw [abs_of_nonneg (by linarith : (0 : ℚ) ≤ 1 / 2 - fracF rnd ⟨neg ^^ c, e⟩ / 2), abs_le] at this
      linarith
    refine ⟨h.isDouble _ ?_, h.nonneg (by linarith) (big (by linarith)), h.le_one (by linarith) (by linarith)⟩
    rw [abs_of_nonneg (by linarith)]
    exact big (by linarith)

/-- A count that is not 0 is at least the weight of one path. -/
theorem frac_ge {d : DD} {neg : Bool} (h0 : Edge.frac ⟨neg, d⟩ ≠ 0) : 1 / 2 ^ d.height ≤ Edge.frac ⟨neg, d⟩ := by
  obtain ⟨k, -, e⟩ := frac_dyadic d neg (le_refl d.height)
  rw [e] at h0 ⊢
  have : 1 ≤ k := by
    by_contra hk
    have : k = 0 := by omega
    subst this
    simp at h0
  have : (1 : ℚ) ≤ k := by exact_mod_cast this
  gcongr

/-- The relative error grows by at most one unit per level. -/
theorem fracF_rel (h : Nearest rnd) (d : DD) (neg : Bool) (hwf : d.WF m) (hh : d.height ≤ 1021) :
    Edge.frac ⟨neg, d⟩ * (1 - d.height * (1 / 2 ^ 53)) ≤ fracF rnd ⟨neg, d⟩ ∧
      fracF rnd ⟨neg, d⟩ ≤ Edge.frac ⟨neg, d⟩ * (1 + d.height * (1 / 2 ^ 52)) := by
  induction d generalizing neg with
  | one => cases neg <;> simp [fracF, memoPure, Edge.frac, DD.frac, DD.height]
  | node v t c e iht ihe =>
    simp only [DD.height] at hh ⊢
    set H := max t.height e.height with hH
    have hw : H ≤ 1020 := by omega
    obtain ⟨t1, t2⟩ := iht neg hwf.1 (by omega)
    obtain ⟨e1, e2⟩ := ihe (neg ^^ c) hwf.2.1 (by omega)
    obtain ⟨td, t0, t1'⟩ := fracF_range h t neg
    obtain ⟨ed, e0, e1'⟩ := fracF_range h e (neg ^^ c)
    have tb := frac_bounds (m := m) (a := ⟨neg, t⟩) hwf.1
    have eb := frac_bounds (m := m) (a := ⟨neg ^^ c, e⟩) hwf.2.1
    have tz := frac_ge (d := t) (neg := neg)
    have ez := frac_ge (d := e) (neg := neg ^^ c)
    rw [fracF_node, frac_node]
    obtain ⟨u, hu⟩ : ∃ u : ℚ, u = 1 / 2 ^ 53 := ⟨_, rfl⟩
    have hu2 : (1 : ℚ) / 2 ^ 52 = 2 * u := by rw [hu, pow_succ]; field_simp
    have hu0 : 0 < u := by rw [hu]; positivity
    have hus : 2048 * u ≤ 1 := by rw [hu]; norm_num
    rw [hu2] at t2 e2 ⊢
    rw [← hu] at t1 e1 ⊢
    have hHq : (H : ℚ) ≤ 1020 := by exact_mod_cast hw
    have htH : (t.height : ℚ) ≤ H := by exact_mod_cast le_max_left _ _
    have heH : (e.height : ℚ) ≤ H := by exact_mod_cast le_max_right _ _
    -- a value that is not 0 is not small
    have small : ∀ {F c : ℚ} {k : Nat}, k ≤ H → 0 ≤ c → (c ≠ 0 → 1 / 2 ^ k ≤ c) → c * (1 - k * u) ≤ F →
        F ≤ c * (1 + k * (2 * u)) → F = 0 ∨ 1 / 2 ^ 1021 ≤ F := by
      intro F c k hk hc0 hc h1 h2
      by_cases hz : c = 0
      · rw [hz, zero_mul] at h1 h2
        exact .inl (le_antisymm h2 h1)
      · right
        have hkq : (k : ℚ) ≤ H := by exact_mod_cast hk
        have h3 := hc hz
        have h4 : (1 : ℚ) / 2 ≤ 1 - k * u := by nlinarith
        have h5 : (1 : ℚ) / 2 ^ 1020 ≤ 1 / 2 ^ k :=
          one_div_le_one_div_of_le (by positivity) (pow_le_pow_right₀ (by norm_num) (by omega))
        calc (1 : ℚ) / 2 ^ 1021 = 1 / 2 ^ 1020 * (1 / 2) := by rw [pow_succ]; field_simp
          _ ≤ c * (1 - k * u) := mul_le_mul (h5.trans h3) h4 (by norm_num) hc0
          _ ≤ F := h1
    have ts := small (le_max_left _ _) tb.1 tz t1 t2
    have es := small (le_max_right _ _) eb.1 ez e1 e2
    have hhalf : ∀ {F : ℚ}, IsDouble F → F = 0 ∨ 1 / 2 ^ 1021 ≤ F → F ≤ 1 → rnd (F / 2) = F / 2 := by
      intro F hd hF h1
      rcases hF with rfl | hF
      · rw [zero_div]
        exact h.exact' isDouble_zero le_rfl (by norm_num)
      · have : (0 : ℚ) < F := lt_of_lt_of_le (by positivity) hF
        exact h.exact' (isDouble_half hd hF) (by linarith) (by linarith)
    rw [hhalf td ts t1', hhalf ed es e1']
    set T := fracF rnd ⟨neg, t⟩
    set E := fracF rnd ⟨neg ^^ c, e⟩
    set a := Edge.frac ⟨neg, t⟩
    set b := Edge.frac ⟨neg ^^ c, e⟩
    have hsum : |rnd (T / 2 + E / 2) - (T / 2 + E / 2)| ≤ (T / 2 + E / 2) * u := by
      by_cases hz : T = 0 ∧ E = 0
      · rw [hz.1, hz.2]
        simp only [zero_div, add_zero, zero_mul]
        rw [h.exact' isDouble_zero le_rfl (by norm_num)]
        simp
      · rw [hu]
        refine h.rel ?_ (le_trans (by linarith : T / 2 + E / 2 ≤ 1) (one_le_pow₀ (by norm_num)))
        have e3 : (1 : ℚ) / 2 ^ 1022 = 1 / 2 ^ 1021 / 2 := by rw [pow_succ]; field_simp
        rw [e3]
        rcases ts with ts | ts
        · rcases es with es | es
          · exact absurd ⟨ts, es⟩ hz
          · linarith
        · linarith
    rw [abs_le] at hsum
    push_cast
    have A1 : a * (1 - H * u) ≤ T := by
      refine le_trans ?_ t1
      apply mul_le_mul_of_nonneg_left _ tb.1
      nlinarith
    have B1 : b * (1 - H * u) ≤ E := by
      refine le_trans ?_ e1
      apply mul_le_mul_of_nonneg_left _ eb.1
      nlinarith
    have A2 : T ≤ a * (1 + H * (2 * u)) := by
      refine t2.trans ?_
      apply mul_le_mul_of_nonneg_left _ tb.1
      nlinarith
    have B2 : E ≤ b * (1 + H * (2 * u)) := by
      refine e2.trans ?_
      apply mul_le_mul_of_nonneg_left _ eb.1
      nlinarith
    have hab : 0 ≤ (a + b) / 2 := by linarith [tb.1, eb.1]
    have hu1 : u ≤ 1 := by linarith
    have hHu : 0 ≤ (H : ℚ) * (u * u) := by positivity
    constructor
    · calc (a + b) / 2 * (1 - (H + 1) * u) ≤ (a + b) / 2 * ((1 - H * u) * (1 - u)) := by
            apply mul_le_mul_of_nonneg_left _ hab
            linarith [hHu, (by ring : (1 - (H : ℚ) * u) * (1 - u) = 1 - (H + 1) * u + H * (u * u))]
        _ = (a * (1 - H * u) / 2 + b * (1 - H * u) / 2) * (1 - u) := by ring
        _ ≤ (T / 2 + E / 2) * (1 - u) := by
            apply mul_le_mul_of_nonneg_right _ (by linarith)
            linarith
        _ ≤ rnd (T / 2 + E / 2) := by linarith [hsum.1, (by ring : (T / 2 + E / 2) * (1 - u) = T / 2 + E / 2 - (T / 2 + E / 2) * u)]
    · have hHu2 : (H : ℚ) * (2 * u) ≤ 1 := by nlinarith
      calc rnd (T / 2 + E / 2) ≤ (T / 2 + E / 2) * (1 + u) := by
            linarith [hsum.2, (by ring : (T / 2 + E / 2) * (1 + u) = T / 2 + E / 2 + (T / 2 + E / 2) * u)]
        _ ≤ (a * (1 + H * (2 * u)) / 2 + b * (1 + H * (2 * u)) / 2) * (1 + u) := by
            apply mul_le_mul_of_nonneg_right _ (by linarith)
            linarith
        _ = (a + b) / 2 * ((1 + H * (2 * u)) * (1 + u)) := by ring
        _ ≤ (a + b) / 2 * (1 + (H + 1) * (2 * u)) := by
            apply mul_le_mul_of_nonneg_left _ hab
            have : (H : ℚ) * (2 * u) * u ≤ 1 * u := mul_le_mul_of_nonneg_right hHu2 hu0.le
            linarith [(by ring : (1 + (H : ℚ) * (2 * u)) * (1 + u) = 1 + H * (2 * u) + u + H * (2 * u) * u)]

/-- What the random walk needs of a count. -/
theorem fracF_zero (h : Nearest rnd) (d : DD) (neg : Bool) (hwf : d.WF m) (hh : d.height ≤ 1021) :
    fracF rnd ⟨neg, d⟩ = 0 ↔ Edge.frac ⟨neg, d⟩ = 0 := by
  obtain ⟨h1, h2⟩ := fracF_rel h d neg hwf hh
  have hb := frac_bounds (m := m) (a := ⟨neg, d⟩) hwf
  have hq : (d.height : ℚ) ≤ 1021 := by exact_mod_cast hh
  constructor
  · intro h0
    rw [h0] at h1
    by_contra hz
    have hpos : 0 < Edge.frac ⟨neg, d⟩ := lt_of_le_of_ne hb.1 (Ne.symm hz)
    have : (0 : ℚ) < 1 - d.height * (1 / 2 ^ 53) := by
      have : (d.height : ℚ) * (1 / 2 ^ 53) ≤ 1021 * (1 / 2 ^ 53) := mul_le_mul_of_nonneg_right hq (by positivity)
      have : (1021 : ℚ) * (1 / 2 ^ 53) < 1 := by norm_num
      linarith
    have := mul_pos hpos this
    linarith
  · intro h0
    rw [h0, zero_mul] at h1 h2
    exact le_antisymm h2 h1

end Verif

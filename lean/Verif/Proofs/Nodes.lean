import Verif.Proofs.Count
import Mathlib.Data.Fin.Tuple.Basic
import Mathlib.Logic.Equiv.Fin.Basic
import Mathlib.Algebra.Order.BigOperators.Ring.Finset

/-!
# Lemmas for `terminal_level`, `eval`, `count_solutions` and `random_satisfying_input`
-/

namespace Verif

variable {m : Mgr}

/-! ### terminal_level -/

theorem foldl_max_spec (l : List Nat) (a : Nat) :
    a ≤ l.foldl max a ∧ (∀ v ∈ l, v ≤ l.foldl max a) ∧ (l.foldl max a = a ∨ l.foldl max a ∈ l) := by
  induction l generalizing a with
  | nil => simp
  | cons b l ih =>
    obtain ⟨h1, h2, h3⟩ := ih (max a b)
    simp only [List.foldl_cons]
    refine ⟨by omega, ?_, ?_⟩
    · intro v hv
      rcases List.mem_cons.mp hv with rfl | hv
      · omega
      · exact h2 v hv
    · rcases h3 with h3 | h3
      · rcases Nat.le_total a b with h | h
        · right; rw [h3]; simp [Nat.max_eq_right h]
        · left; rw [h3]; exact Nat.max_eq_left h
      · right; exact List.mem_cons_of_mem _ h3

/-- The level a single BDD needs. -/
def bddTop (b : BDD m) : Nat := b.supportIndices.foldl max 0 + 1

theorem terminalLevel_eq (fs : List (List (BDD m))) :
    terminalLevel fs = (fs.flatten.map bddTop).foldl max 0 := by
  unfold terminalLevel
  change List.foldl (fun acc f => List.foldl (fun acc b => max acc (bddTop b)) acc f) 0 fs = _
  generalize 0 = a
  induction fs generalizing a with
  | nil => rfl
  | cons f fs ih =>
    simp only [List.foldl_cons, List.flatten_cons, List.map_append, List.foldl_append]
    rw [ih]
    congr 1
    rw [List.foldl_map]

theorem terminalLevel_gt {fs : List (List (BDD m))} {f : List (BDD m)} (hf : f ∈ fs) {b : BDD m}
    (hb : b ∈ f) {v : Nat} (hv : v ∈ b.supportIndices) : v < terminalLevel fs := by
  rw [terminalLevel_eq]
  have h1 := (foldl_max_spec (fs.flatten.map bddTop) 0).2.1 (bddTop b)
    (List.mem_map.mpr ⟨b, List.mem_flatten.mpr ⟨f, hf, hb⟩, rfl⟩)
  have h2 := (foldl_max_spec b.supportIndices 0).2.1 v hv
  have h3 : bddTop b = b.supportIndices.foldl max 0 + 1 := rfl
  omega

theorem terminalLevel_le {fs : List (List (BDD m))} {N : Nat} (hN : 0 < N)
    (h : ∀ f ∈ fs, ∀ b ∈ f, ∀ v ∈ b.supportIndices, v < N) : terminalLevel fs ≤ N := by
  rw [terminalLevel_eq]
  rcases (foldl_max_spec (fs.flatten.map bddTop) 0).2.2 with h1 | h1
  · omega
  · obtain ⟨b, hb, he⟩ := List.mem_map.mp h1
    rw [← he]
    obtain ⟨f, hf, hb⟩ := List.mem_flatten.mp hb
    unfold bddTop
    rcases (foldl_max_spec b.supportIndices 0).2.2 with h2 | h2
    · omega
    · have := h f hf b hb _ h2
      omega

theorem terminalLevel_pos {fs : List (List (BDD m))} {f : List (BDD m)} (hf : f ∈ fs) {b : BDD m}
    (hb : b ∈ f) : 0 < terminalLevel fs := by
  rw [terminalLevel_eq]
  have h1 := (foldl_max_spec (fs.flatten.map bddTop) 0).2.1 (bddTop b)
    (List.mem_map.mpr ⟨b, List.mem_flatten.mpr ⟨f, hf, hb⟩, rfl⟩)
  have h3 : bddTop b = b.supportIndices.foldl max 0 + 1 := rfl
  omega

/-! ### eval -/

theorem DD.evalIn_sound {inp : List Nat} {d : DD} {b : Bool} (h : d.evalIn inp = .ok b) :
    b = d.eval (asgOf inp) := by
  induction d generalizing b with
  | one => simp only [DD.evalIn, Except.ok.injEq] at h; simp [DD.eval, ← h]
  | node v t c e iht ihe =>
    simp only [DD.evalIn, bind, Except.bind] at h
    by_cases hv : v < inp.length
    · rw [vget_eq inp v 0 hv] at h
      simp only at h
      have ha : asgOf inp v = decide (inp.getD v 0 ≠ 0) := rfl
      simp only [DD.eval]
      split at h
      · rename_i hz
        rw [if_pos (by rw [ha]; simpa using hz)]
        exact iht h
      · rename_i hz
        rw [if_neg (by rw [ha]; simpa using hz)]
        cases he : e.evalIn inp with
        | error f => rw [he] at h; simp at h
        | ok r =>
          rw [he] at h
          simp only [Except.ok.injEq] at h
          rw [← h, ihe he]
    · rw [vget_error inp v (by omega)] at h
      simp at h

theorem BDD.evalIn_sound {inp : List Nat} {f : BDD m} {b : Bool} (h : f.evalIn inp = .ok b) :
    b = f.eval (asgOf inp) := by
  simp only [BDD.evalIn, bind, Except.bind] at h
  cases hd : f.edge.n.evalIn inp with
  | error _ => rw [hd] at h; simp at h
  | ok r =>
    rw [hd] at h
    simp only [Except.ok.injEq] at h
    rw [← h, DD.evalIn_sound hd]; rfl

theorem evalLoop_sound {inp : List Nat} : ∀ (f : List (BDD m)) (i n : Nat),
    evalLoop inp i f = .ok n → n = 2 ^ i * uAt f (asgOf inp)
  | [], i, n, h => by simp only [evalLoop, Except.ok.injEq] at h; simp [← h]
  | b :: bs, i, n, h => by
    simp only [evalLoop, bind, Except.bind] at h
    cases hb : b.evalIn inp with
    | error _ => rw [hb] at h; simp at h
    | ok r =>
      rw [hb] at h
      have hr := BDD.evalIn_sound hb
      simp only [uAt_cons, ← hr]
      cases r
      · simp only [Bool.false_eq_true, if_false] at h
        rw [evalLoop_sound bs (i + 1) n h, pow_succ]
        simp; ring
      · simp only [if_true] at h
        split at h
        · simp at h
        · cases hrest : evalLoop inp (i + 1) bs with
          | error _ => rw [hrest] at h; simp at h
          | ok k =>
            rw [hrest] at h
            simp only [Except.ok.injEq] at h
            rw [← h, evalLoop_sound bs (i + 1) k hrest, pow_succ]
            simp; ring

theorem evalLoop_total {inp : List Nat} : ∀ (f : List (BDD m)) (i : Nat), i + f.length ≤ 63 →
    Fits inp.length f → ∃ n, evalLoop inp i f = .ok n
  | [], i, _, _ => ⟨0, rfl⟩
  | b :: bs, i, hi, hf => by
    simp only [List.length_cons] at hi
    obtain ⟨n, hn⟩ := evalLoop_total bs (i + 1) (by omega) (fun c hc => hf c (by simp [hc]))
    have hb := BDD.evalIn_eq (f := b) (hf b (by simp))
    simp only [evalLoop, hb, bind, Except.bind]
    split
    · rw [if_neg (by omega), hn]
      exact ⟨_, rfl⟩
    · exact ⟨n, hn⟩

/-! ### counting solutions -/

theorem count_eq_mean (N : Nat) (g : Asg → Bool) :
    (count N g : ℚ) = mean N (fun x => ind (g x)) * 2 ^ N := by
  rw [mean_ind_count]
  field_simp

theorem count_split (lo n : Nat) (g : Asg → Bool)
    (h : ∀ x y : Asg, (∀ v, lo ≤ v → x v = y v) → g x = g y) :
    count (lo + n) g = 2 ^ lo * countFrom lo n g := by
  have e1 : count (lo + n) g = ∑ a : Fin (lo + n) → Bool, if g (ext a) = true then 1 else 0 := by
    rw [count, Finset.card_filter]
  have e2 : countFrom lo n g = ∑ b : Fin n → Bool, if g (extFrom lo b) = true then 1 else 0 := by
    rw [countFrom, Finset.card_filter]
  rw [e1, e2, ← Equiv.sum_comp (Fin.appendEquiv lo n), Fintype.sum_prod_type]
  have hg : ∀ (a : Fin lo → Bool) (b : Fin n → Bool),
      g (ext (Fin.appendEquiv lo n (a, b))) = g (extFrom lo b) := by
    intro a b
    apply h
    intro v hv
    simp only [ext, extFrom]
    by_cases hvn : v < lo + n
    · rw [dif_pos hvn, dif_pos ⟨hv, by omega⟩]
      have : (⟨v, hvn⟩ : Fin (lo + n)) = Fin.natAdd lo ⟨v - lo, by omega⟩ := by
        ext; simp; omega
      rw [this]
      exact Fin.append_right a b _
    · rw [dif_neg hvn, dif_neg (by omega)]
  simp only [hg, Finset.sum_const]
  simp

/-! ### random_satisfying_input -/

theorem frac_pos_iff {a : Edge} (hwf : a.n.WF m) : 0 < a.frac ↔ ∃ x, a.eval x = true := by
  obtain ⟨N, hN⟩ := exists_bound a.n.vars
  rw [Edge.frac_eq_mean N hwf hN]
  constructor
  · intro h
    by_contra hc
    push Not at hc
    have : mean N (fun x => ind (a.eval x)) = mean N (fun _ => 0) :=
      mean_congr N (fun x => by simp [Bool.eq_false_iff.mpr (hc x)])
    rw [this, mean_const] at h
    exact lt_irrefl _ h
  · rintro ⟨x, hx⟩
    have := mean_lt N (g := fun _ => 0) (h := fun x => ind (a.eval x)) (fun _ => ind_nonneg _)
      (fun i => x i) (by
        have : a.eval (ext fun i : Fin N => x i) = a.eval x := by
          simp only [Edge.eval]
          rw [DD.eval_congr (fun v hv => ext_agree x (hN v hv))]
        rw [this, hx]; simp)
    rwa [mean_const] at this

theorem frac_bounds {a : Edge} (hwf : a.n.WF m) : 0 ≤ a.frac ∧ a.frac ≤ 1 := by
  obtain ⟨N, hN⟩ := exists_bound a.n.vars
  rw [Edge.frac_eq_mean N hwf hN]
  exact mean_ind_bounds N _

theorem frac_node (neg c : Bool) (v : Nat) (t e : DD) :
    Edge.frac ⟨neg, .node v t c e⟩ = (Edge.frac ⟨neg, t⟩ + Edge.frac ⟨neg ^^ c, e⟩) / 2 := by
  rw [← mintermPure_eq, ← mintermPure_eq, ← mintermPure_eq]
  simp only [memoPure, mintermStep]
  ring

theorem Edge.eval_node (neg c : Bool) (v : Nat) (t e : DD) (x : Asg) :
    Edge.eval ⟨neg, .node v t c e⟩ x =
      if x v then Edge.eval ⟨neg, t⟩ x else Edge.eval ⟨neg ^^ c, e⟩ x := by
  simp only [Edge.eval, DD.eval]
  split <;> simp

/-- Correctness of the random walk, provided no draw is exactly 0. -/
theorem randomSatLoop_spec (hm : m.Mono) (cnt : NMap ℚ) (rs : Nat → Nat)
    (hrs : ∀ i, 0 < rs i ∧ rs i ≤ randMax) :
    ∀ (k level : Nat) (a : Edge), a.n.WF m →
    (∀ b ∈ a.n.reach a.neg, NMap.find cnt b = some b.frac) →
    (∀ v ∈ a.n.vars, level ≤ v ∧ v < level + k) → 0 < a.frac →
    ∃ l, randomSatLoop cnt rs k level a = .ok l ∧ l.length = k ∧ (∀ b ∈ l, b < 2) ∧
      ∀ x : Asg, (∀ i < k, x (level + i) = decide (l.getD i 0 ≠ 0)) → a.eval x = true
  | 0, level, ⟨neg, .one⟩, hwf, hc, hv, hp => by
    refine ⟨[], by simp [randomSatLoop], rfl, by simp, fun x _ => ?_⟩
    cases neg
    · rfl
    · simp [Edge.frac, DD.frac] at hp
  | 0, level, ⟨neg, .node v t c e⟩, hwf, hc, hv, hp => by
    have := hv v (by simp [DD.vars]); omega
  | k + 1, level, ⟨neg, .one⟩, hwf, hc, hv, hp => by
    obtain ⟨l, hl, hlen, hb, hx⟩ := randomSatLoop_spec hm cnt rs hrs k (level + 1) ⟨neg, .one⟩ hwf hc
      (by simp [DD.vars]) hp
    refine ⟨rs level % 2 :: l, by simp [randomSatLoop, hl, bind, Except.bind], by simp [hlen], ?_,
      fun x _ => ?_⟩
    · intro b hb'
      rcases List.mem_cons.mp hb' with rfl | h
      · omega
      · exact hb b h
    · cases neg
      · rfl
      · simp [Edge.frac, DD.frac] at hp
  | k + 1, level, ⟨neg, .node v t c e⟩, hwf, hc, hv, hp => by
    by_cases hlv : level < v
    · obtain ⟨l, hl, hlen, hb, hx⟩ := randomSatLoop_spec hm cnt rs hrs k (level + 1)
        ⟨neg, .node v t c e⟩ hwf hc (fun w hw => ⟨by
          simp only [DD.vars, List.mem_cons, List.mem_append] at hw
          rcases hw with rfl | hw | hw
          · omega
          · have := DD.Below.vars_lt hm hwf.1 hwf.2.2.1 w hw; omega
          · have := DD.Below.vars_lt hm hwf.2.1 hwf.2.2.2.1 w hw; omega,
          by have := (hv w hw).2; omega⟩) hp
      refine ⟨rs level % 2 :: l, by simp [randomSatLoop, hlv, hl, bind, Except.bind],
        by simp [hlen], ?_, fun x hx' => hx x (fun i hi => ?_)⟩
      · intro b hb'
        rcases List.mem_cons.mp hb' with rfl | h
        · omega
        · exact hb b h
      · have := hx' (i + 1) (by omega)
        have e1 : level + 1 + i = level + (i + 1) := by omega
        rw [e1, this]; simp
    · have hveq : v = level := by have := (hv v (by simp [DD.vars])).1; omega
      subst hveq
      have ht : NMap.find cnt ⟨neg, t⟩ = some (Edge.frac ⟨neg, t⟩) :=
        hc _ (by simp only [DD.reach, List.mem_cons, List.mem_append]
                 exact .inr (.inl (DD.self_mem_reach t neg)))
      have he : NMap.find cnt ⟨neg ^^ c, e⟩ = some (Edge.frac ⟨neg ^^ c, e⟩) :=
        hc _ (by simp only [DD.reach, List.mem_cons, List.mem_append]
                 exact .inr (.inr (DD.self_mem_reach e _)))
      have hbt := frac_bounds (m := m) (a := ⟨neg, t⟩) hwf.1
      have hbe := frac_bounds (m := m) (a := ⟨neg ^^ c, e⟩) hwf.2.1
      rw [frac_node] at hp
      have hsum : 0 < Edge.frac ⟨neg, t⟩ + Edge.frac ⟨neg ^^ c, e⟩ := by linarith
      have hrm : (0 : ℚ) < (randMax : ℚ) := by norm_num [randMax]
      have hr0 : 0 < (rs v : ℚ) / randMax :=
        div_pos (by exact_mod_cast (hrs v).1) hrm
      have hr1 : (rs v : ℚ) / randMax ≤ 1 := by
        rw [div_le_one hrm]; exact_mod_cast (hrs v).2
      have hnl : ¬ v < v := lt_irrefl v
      by_cases hcase : (rs v : ℚ) / randMax ≤
          Edge.frac ⟨neg, t⟩ / (Edge.frac ⟨neg, t⟩ + Edge.frac ⟨neg ^^ c, e⟩)
      · have hpt : 0 < Edge.frac ⟨neg, t⟩ := by
          by_contra hcon
          have : Edge.frac ⟨neg, t⟩ = 0 := le_antisymm (not_lt.mp hcon) hbt.1
          rw [this, zero_div] at hcase
          linarith
        obtain ⟨l, hl, hlen, hb, hx⟩ := randomSatLoop_spec hm cnt rs hrs k (v + 1) ⟨neg, t⟩ hwf.1
          (fun b hb => hc b (by
            simp only [DD.reach, List.mem_cons, List.mem_append]; exact .inr (.inl hb)))
          (fun w hw => ⟨DD.Below.vars_lt hm hwf.1 hwf.2.2.1 w hw, by
            have := (hv w (by simp [DD.vars, hw])).2; omega⟩) hpt
        refine ⟨1 :: l, ?_, by simp [hlen], ?_, fun x hx' => ?_⟩
        · rw [randomSatLoop, if_neg hnl, ht, he]
          simp only
          rw [if_pos ⟨hsum.ne', hcase⟩]
          simp [hl, bind, Except.bind]
        · intro b hb'
          rcases List.mem_cons.mp hb' with rfl | h
          · omega
          · exact hb b h
        · rw [Edge.eval_node]
          have h0 := hx' 0 (by omega)
          simp only [Nat.add_zero, List.getD_cons_zero, ne_eq, one_ne_zero, not_false_eq_true,
            decide_true] at h0
          rw [if_pos h0]
          exact hx x (fun i hi => by
            have := hx' (i + 1) (by omega)
            have e1 : v + 1 + i = v + (i + 1) := by omega
            rw [e1, this]; simp)
      · have hpe : 0 < Edge.frac ⟨neg ^^ c, e⟩ := by
          by_contra hcon
          have h0 : Edge.frac ⟨neg ^^ c, e⟩ = 0 := le_antisymm (not_lt.mp hcon) hbe.1
          rw [h0, add_zero] at hcase hsum
          rw [div_self hsum.ne'] at hcase
          exact hcase hr1
        obtain ⟨l, hl, hlen, hb, hx⟩ := randomSatLoop_spec hm cnt rs hrs k (v + 1) ⟨neg ^^ c, e⟩
          hwf.2.1
          (fun b hb => hc b (by
            simp only [DD.reach, List.mem_cons, List.mem_append]; exact .inr (.inr hb)))
          (fun w hw => ⟨DD.Below.vars_lt hm hwf.2.1 hwf.2.2.2.1 w hw, by
            have := (hv w (by simp [DD.vars, hw])).2; omega⟩) hpe
        refine ⟨0 :: l, ?_, by simp [hlen], ?_, fun x hx' => ?_⟩
        · rw [randomSatLoop, if_neg hnl, ht, he]
          simp only
          rw [if_neg (fun h => hcase h.2)]
          simp [hl, bind, Except.bind]
        · intro b hb'
          rcases List.mem_cons.mp hb' with rfl | h
          · omega
          · exact hb b h
        · rw [Edge.eval_node]
          have h0 := hx' 0 (by omega)
          simp only [Nat.add_zero, List.getD_cons_zero, ne_eq, not_true_eq_false,
            decide_false] at h0
          rw [h0]
          simp only [Bool.false_eq_true, if_false]
          exact hx x (fun i hi => by
            have := hx' (i + 1) (by omega)
            have e1 : v + 1 + i = v + (i + 1) := by omega
            rw [e1, this]; simp)

end Verif

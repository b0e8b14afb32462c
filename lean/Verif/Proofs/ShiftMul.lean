import Verif.Proofs.Arith

/-!
# Lemmas for `bdd_shift` and `bdd_multiply_constant`
-/

namespace Verif

variable {m : Mgr}

theorem mapM_ok {α β : Type _} {l : List α} {g : α → Except Fault β} {h : α → β}
    (H : ∀ i ∈ l, g i = .ok (h i)) : l.mapM g = .ok (l.map h) := by
  induction l with
  | nil => rfl
  | cons a l ih =>
    rw [List.mapM_cons, H a (by simp), ih (fun i hi => H i (by simp [hi]))]
    rfl

/-- The value of `bdd_shift` as a plain list. -/
def shiftPure (f : List (BDD m)) (k : Int) : List (BDD m) :=
  (List.range f.length).map fun (i : Nat) =>
    if (i : Int) < k ∨ (i : Int) ≥ (f.length : Int) + k then .zero
    else f.getD ((i : Int) - k).toNat .zero

theorem bddShift_ok (f : List (BDD m)) (k : Int) : bddShift f k = .ok (shiftPure f k) := by
  apply mapM_ok
  intro i hi
  split
  · rfl
  · rename_i h
    push Not at h
    rw [vget_eq f _ .zero]
    omega

theorem shiftPure_getD (f : List (BDD m)) (k : Int) (x : Asg) (i : Nat) :
    ((shiftPure f k).getD i .zero).eval x =
      (decide (i < f.length) && decide (k ≤ i) && (uAt f x).testBit ((i : Int) - k).toNat) := by
  by_cases hi : i < f.length
  · have h1 : (shiftPure f k).getD i .zero =
        (if (i : Int) < k ∨ (i : Int) ≥ (f.length : Int) + k then .zero
          else f.getD ((i : Int) - k).toNat .zero) := by
      simp [shiftPure, List.getD_eq_getElem?_getD, hi]
    rw [h1]
    split
    · rename_i h
      rcases h with h | h
      · have : ¬ (k ≤ (i : Int)) := by omega
        simp [this]
      · have hb : (uAt f x).testBit ((i : Int) - k).toNat = false := by
          apply Nat.testBit_lt_two_pow
          calc uAt f x < 2 ^ f.length := uAt_lt f x
            _ ≤ 2 ^ ((i : Int) - k).toNat := Nat.pow_le_pow_right (by norm_num) (by omega)
        simp [hb]
    · rename_i h
      push Not at h
      rw [uAt_testBit]
      simp [hi, h.1]
  · have h1 : (shiftPure f k).getD i .zero = .zero := by
      rw [List.getD_eq_default]
      simpa [shiftPure] using hi
    rw [h1]
    simp [hi]

theorem shiftPure_length (f : List (BDD m)) (k : Int) : (shiftPure f k).length = f.length := by
  simp [shiftPure]

theorem uAt_shift_left (f : List (BDD m)) (k : Nat) (x : Asg) :
    uAt (shiftPure f k) x = (uAt f x * 2 ^ k) % 2 ^ f.length := by
  apply Nat.eq_of_testBit_eq
  intro i
  rw [uAt_testBit, shiftPure_getD, Nat.testBit_mod_two_pow, Nat.testBit_mul_two_pow]
  have : ((i : Int) - k).toNat = i - k := by omega
  rw [this]
  simp [Bool.and_assoc]

theorem uAt_shift_right (f : List (BDD m)) (k : Nat) (x : Asg) :
    uAt (shiftPure f (-(k : Int))) x = uAt f x / 2 ^ k := by
  apply Nat.eq_of_testBit_eq
  intro i
  rw [uAt_testBit, shiftPure_getD, ← Nat.shiftRight_eq_div_pow, Nat.testBit_shiftRight]
  have h1 : ((i : Int) - -(k : Int)).toNat = k + i := by omega
  have h2 : (-(k : Int) ≤ i) := by omega
  rw [h1]
  by_cases hi : i < f.length
  · simp [hi, h2]
  · have hb : (uAt f x).testBit (k + i) = false := by
      apply Nat.testBit_lt_two_pow
      calc uAt f x < 2 ^ f.length := uAt_lt f x
        _ ≤ 2 ^ (k + i) := Nat.pow_le_pow_right (by norm_num) (by omega)
    simp [hb]

theorem zeroExtend_length (f : List (BDD m)) (n : Nat) :
    (zeroExtend f n).length = max f.length n := by
  simp [zeroExtend]; omega

@[simp] theorem uAt_zeroExtend (f : List (BDD m)) (n : Nat) (x : Asg) :
    uAt (zeroExtend f n) x = uAt f x := by
  simp [zeroExtend, uAt_append]

/-- The generic shift-and-add loop: it adds up, modulo the width, the shifted copies selected by
the factor. -/
theorem mulLoop_spec (fc : List (BDD m)) (factor : Nat) (sh : Nat → Int) :
    ∀ (is : List Nat) (res : List (BDD m)), res.length = fc.length →
    ∃ r, mulLoop fc factor sh is res = .ok r ∧ r.length = fc.length ∧
      ∀ x, uAt r x = (uAt res x + (is.map fun i =>
        if factor.testBit i then uAt (shiftPure fc (sh i)) x else 0).sum) % 2 ^ fc.length
  | [], res, h => ⟨res, rfl, h, fun x => by
      simp only [List.map_nil, List.sum_nil, Nat.add_zero]
      exact (Nat.mod_eq_of_lt (h ▸ uAt_lt res x)).symm⟩
  | i :: is, res, h => by
    unfold mulLoop
    split
    · rename_i hb
      obtain ⟨r, hr, hl, hv⟩ := bddAdd_spec res (shiftPure fc (sh i))
        (by rw [shiftPure_length, h])
      obtain ⟨r', hr', hl', hv'⟩ := mulLoop_spec fc factor sh is r (by omega)
      refine ⟨r', by simp [bddShift_ok, hr, hr', bind, Except.bind], hl', fun x => ?_⟩
      rw [hv' x, hv x, h]
      simp only [List.map_cons, hb, if_true, List.sum_cons]
      rw [Nat.mod_add_mod, Nat.add_assoc]
    · rename_i hb
      obtain ⟨r', hr', hl', hv'⟩ := mulLoop_spec fc factor sh is res h
      refine ⟨r', hr', hl', fun x => ?_⟩
      rw [hv' x]
      simp only [List.map_cons, hb, List.sum_cons]
      simp

/-- A number is the sum of its bits. -/
theorem sum_testBit (v n : Nat) :
    ((List.range n).map fun i => if v.testBit i then 2 ^ i else 0).sum = v % 2 ^ n := by
  induction n with
  | zero => simp [Nat.mod_one]
  | succ n ih =>
    rw [List.range_succ, List.map_append, List.sum_append, ih]
    simp only [List.map_cons, List.map_nil, List.sum_cons, List.sum_nil, Nat.add_zero]
    rw [Nat.mod_pow_succ]
    rw [Nat.testBit_eq_decide_div_mod_eq]
    rcases Nat.mod_two_eq_zero_or_one (v / 2 ^ n) with h | h <;> simp [h]

theorem sum_mod_congr {α} (l : List α) (a b : α → Nat) (P : Nat)
    (h : ∀ i ∈ l, a i % P = b i % P) : (l.map a).sum % P = (l.map b).sum % P := by
  induction l with
  | nil => rfl
  | cons c l ih =>
    simp only [List.map_cons, List.sum_cons]
    rw [Nat.add_mod, h c (by simp), ih (fun i hi => h i (by simp [hi])), ← Nat.add_mod]

theorem sum_mul_testBit (a v n : Nat) :
    ((List.range n).map fun i => if v.testBit i then a * 2 ^ i else 0).sum = a * (v % 2 ^ n) := by
  rw [← sum_testBit v n]
  generalize List.range n = l
  induction l with
  | nil => simp
  | cons c l ih =>
    simp only [List.map_cons, List.sum_cons, ih]
    split <;> ring

/-- Integer part loop: multiplication modulo the width. -/
theorem mulLoop_int (fc res : List (BDD m)) (factor : Nat) (hf : factor < 2 ^ 256)
    (h : res.length = fc.length) :
    ∃ r, mulLoop fc factor (fun i => (i : Int)) (List.range 256) res = .ok r ∧
      r.length = fc.length ∧
      ∀ x, uAt r x = (uAt res x + uAt fc x * factor) % 2 ^ fc.length := by
  obtain ⟨r, hr, hl, hv⟩ := mulLoop_spec fc factor (fun i => (i : Int)) (List.range 256) res h
  refine ⟨r, hr, hl, fun x => ?_⟩
  rw [hv x]
  have h1 := sum_mul_testBit (uAt fc x) factor 256
  rw [Nat.mod_eq_of_lt hf] at h1
  have h2 := sum_mod_congr (List.range 256)
    (fun i => if factor.testBit i then uAt (shiftPure fc (i : Int)) x else 0)
    (fun i => if factor.testBit i then uAt fc x * 2 ^ i else 0) (2 ^ fc.length) ?_
  · rw [← h1, Nat.add_mod, h2, ← Nat.add_mod]
  intro i _
  split
  · rw [uAt_shift_left, Nat.mod_mod]
  · rfl

theorem bddMultiplyConstantLg_spec (f : List (BDD m)) (factor lg : Nat) (hf : factor < 2 ^ 256)
    (hlg : factor ≤ 2 ^ (lg + 1)) :
    ∃ r, bddMultiplyConstantLg f factor lg = .ok r ∧ r.length = f.length + lg + 2 ∧
      ∀ x, uAt r x = uAt f x * factor := by
  have hlen : (zeroExtend f (f.length + (lg + 2))).length = f.length + (lg + 2) := by
    rw [zeroExtend_length]; omega
  obtain ⟨r, hr, hl, hv⟩ := mulLoop_int (zeroExtend f (f.length + (lg + 2)))
    (List.replicate (f.length + (lg + 2)) .zero) factor hf (by rw [hlen]; simp)
  refine ⟨r, hr, by omega, fun x => ?_⟩
  rw [hv x, hlen]
  simp only [uAt_replicate_zero, uAt_zeroExtend, Nat.zero_add]
  apply Nat.mod_eq_of_lt
  calc uAt f x * factor ≤ uAt f x * 2 ^ (lg + 1) := Nat.mul_le_mul_left _ hlg
    _ < 2 ^ f.length * 2 ^ (lg + 1) := Nat.mul_lt_mul_of_pos_right (uAt_lt f x) (by positivity)
    _ ≤ 2 ^ (f.length + (lg + 2)) := by
        rw [← pow_add]; exact Nat.pow_le_pow_right (by norm_num) (by omega)

end Verif

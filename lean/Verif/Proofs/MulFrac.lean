import Verif.Proofs.Compare
import Mathlib.Algebra.Order.Floor.Ring
import Mathlib.Tactic.Positivity
import Mathlib.Tactic.FieldSimp

/-!
# Lemmas for `bdd_multiply_constant` with a fractional factor
-/

namespace Verif

variable {m : Mgr}

theorem frac_sum_bounds (a v e : Nat) : ∀ n, n ≤ e →
    ((List.range n).map fun i => if v.testBit i then a / 2 ^ (e - i) else 0).sum * 2 ^ e
      ≤ a * (v % 2 ^ n) ∧
    a * (v % 2 ^ n) ≤
      (((List.range n).map fun i => if v.testBit i then a / 2 ^ (e - i) else 0).sum + n) * 2 ^ e ∧
    (2 ^ e ∣ a →
      ((List.range n).map fun i => if v.testBit i then a / 2 ^ (e - i) else 0).sum * 2 ^ e
        = a * (v % 2 ^ n))
  | 0, _ => by simp [Nat.mod_one]
  | n + 1, hn => by
    obtain ⟨h1, h2, h3⟩ := frac_sum_bounds a v e n (by omega)
    rw [List.range_succ, List.map_append, List.sum_append]
    simp only [List.map_cons, List.map_nil, List.sum_cons, List.sum_nil, Nat.add_zero]
    have hm : v % 2 ^ (n + 1) = v % 2 ^ n + (if v.testBit n then 2 ^ n else 0) := by
      rw [Nat.mod_pow_succ, Nat.testBit_eq_decide_div_mod_eq]
      rcases Nat.mod_two_eq_zero_or_one (v / 2 ^ n) with h | h <;> simp [h]
    rw [hm]
    have hp : 2 ^ e = 2 ^ (e - n) * 2 ^ n := by rw [← pow_add]; congr 1; omega
    generalize ((List.range n).map fun i => if v.testBit i then a / 2 ^ (e - i) else 0).sum = S at *
    by_cases hb : v.testBit n = true
    · simp only [hb, if_true]
      have hd := Nat.div_add_mod a (2 ^ (e - n))
      have hlt := Nat.mod_lt a (show 2 ^ (e - n) > 0 by positivity)
      have hle : a / 2 ^ (e - n) * 2 ^ e ≤ a * 2 ^ n := by
        rw [hp, ← mul_assoc]
        exact Nat.mul_le_mul_right _ (Nat.div_mul_le_self _ _)
      have hge : a * 2 ^ n ≤ (a / 2 ^ (e - n) + 1) * 2 ^ e := by
        rw [hp, ← mul_assoc]
        apply Nat.mul_le_mul_right
        rw [Nat.add_mul, Nat.mul_comm]
        omega
      refine ⟨?_, ?_, fun hdv => ?_⟩
      · rw [Nat.add_mul, Nat.mul_add]; omega
      · have e1 : (S + a / 2 ^ (e - n) + (n + 1)) * 2 ^ e =
          (S + n) * 2 ^ e + (a / 2 ^ (e - n) + 1) * 2 ^ e := by ring
        rw [e1, Nat.mul_add]; omega
      · have hdv' : 2 ^ (e - n) ∣ a := dvd_trans (pow_dvd_pow 2 (by omega)) hdv
        have e2 : a / 2 ^ (e - n) * 2 ^ e = a * 2 ^ n := by
          rw [hp, ← mul_assoc, Nat.div_mul_cancel hdv']
        rw [Nat.add_mul, Nat.mul_add, h3 hdv, e2]
    · simp only [hb]
      simp only [Bool.false_eq_true, if_false, Nat.add_zero]
      refine ⟨h1, le_trans h2 (Nat.mul_le_mul_right _ (by omega)), h3⟩

/-- The two loops of the fractional multiplication with results of `E` more bits, if that is enough. -/
theorem mulFrac_core (f : List (BDD m)) (factor : ℚ) (e E : Nat) (hpos : 0 < factor)
    (h2 : factor < 2 ^ 256) (hcE : factor ≤ 2 ^ E) :
    ∃ r1 r, mulLoop (zeroExtend f (f.length + E)) ⌊factor⌋.toNat (fun i => (i : Int)) (List.range 256)
        (List.replicate (f.length + E) .zero) = .ok r1 ∧
      mulLoop (zeroExtend f (f.length + E)) ⌊(factor - ⌊factor⌋) * 2 ^ e⌋.toNat
        (fun i => -((e - i : Nat) : Int)) (List.range e) r1 = .ok r ∧
      r.length = f.length + E ∧
      (∀ x, uAt r x = uAt f x * ⌊factor⌋.toNat + ((List.range e).map fun i =>
        if ⌊(factor - ⌊factor⌋) * 2 ^ e⌋.toNat.testBit i then uAt f x / 2 ^ (e - i) else 0).sum) ∧
      ∀ x, (uAt r x : ℚ) ≤ uAt f x * factor ∧
        (uAt f x : ℚ) * factor ≤ uAt r x + uAt f x / 2 ^ e + e ∧
        (2 ^ e ∣ uAt f x → (∃ k : ℤ, factor * 2 ^ e = k) → (uAt r x : ℚ) = uAt f x * factor) := by
  have hlen : (zeroExtend f (f.length + E)).length = f.length + E := by
    rw [zeroExtend_length]; omega
  have hfl0 : 0 ≤ ⌊factor⌋ := Int.floor_nonneg.mpr hpos.le
  set gr := ⌊factor⌋.toNat with hgr
  have hgrc : (gr : ℚ) = ((⌊factor⌋ : ℤ) : ℚ) := by
    rw [← Int.cast_natCast (R := ℚ), hgr, Int.toNat_of_nonneg hfl0]
  have hgrle : (gr : ℚ) ≤ factor := by rw [hgrc]; exact Int.floor_le _
  have hgrlt : gr < 2 ^ 256 := by
    have : (gr : ℚ) < 2 ^ 256 := lt_of_le_of_lt hgrle h2
    exact_mod_cast this
  set fr := factor - ((⌊factor⌋ : ℤ) : ℚ) with hfr
  have hfr0 : 0 ≤ fr := by rw [hfr]; linarith [Int.floor_le factor]
  have hfr1 : fr < 1 := by rw [hfr]; linarith [Int.lt_floor_add_one factor]
  have hle0 : 0 ≤ ⌊fr * 2 ^ e⌋ := Int.floor_nonneg.mpr (by positivity)
  set le := ⌊fr * 2 ^ e⌋.toNat with hle
  have hlec : (le : ℚ) = ((⌊fr * 2 ^ e⌋ : ℤ) : ℚ) := by
    rw [← Int.cast_natCast (R := ℚ), hle, Int.toNat_of_nonneg hle0]
  have hp : (0 : ℚ) < 2 ^ e := by positivity
  have hlele : (le : ℚ) ≤ fr * 2 ^ e := by rw [hlec]; exact Int.floor_le _
  have hlege : fr * 2 ^ e ≤ le + 1 := by rw [hlec]; exact (Int.lt_floor_add_one _).le
  have hlelt : le < 2 ^ e := by
    have : (le : ℚ) < 2 ^ e := lt_of_le_of_lt hlele (by nlinarith)
    exact_mod_cast this
  obtain ⟨r1, hr1, hr1l, hr1v⟩ := mulLoop_int (zeroExtend f (f.length + E))
    (List.replicate (f.length + E) .zero) gr hgrlt (by rw [hlen]; simp)
  obtain ⟨r, hr, hrl, hrv⟩ := mulLoop_spec (zeroExtend f (f.length + E)) le
    (fun i => -((e - i : Nat) : Int)) (List.range e) r1 hr1l
  have hval : ∀ x, uAt r x = uAt f x * gr + ((List.range e).map fun i =>
      if le.testBit i then uAt f x / 2 ^ (e - i) else 0).sum ∧
      (uAt r x : ℚ) ≤ uAt f x * factor ∧
        (uAt f x : ℚ) * factor ≤ uAt r x + uAt f x / 2 ^ e + e ∧
        (2 ^ e ∣ uAt f x → (∃ k : ℤ, factor * 2 ^ e = k) → (uAt r x : ℚ) = uAt f x * factor) := by
    intro x
    have hv := hrv x
    simp only [hr1v x, hlen, uAt_replicate_zero, uAt_zeroExtend, Nat.zero_add, Nat.mod_add_mod,
      uAt_shift_right] at hv
    obtain ⟨b1, b2, b3⟩ := frac_sum_bounds (uAt f x) le e e le_rfl
    rw [Nat.mod_eq_of_lt hlelt] at b1 b2 b3
    set S := ((List.range e).map fun i =>
      if le.testBit i then uAt f x / 2 ^ (e - i) else 0).sum with hS
    have b1' : (S : ℚ) * 2 ^ e ≤ uAt f x * le := by exact_mod_cast b1
    have b2' : (uAt f x : ℚ) * le ≤ (S + e) * 2 ^ e := by exact_mod_cast b2
    have hfx : (0 : ℚ) ≤ uAt f x := by positivity
    have hS1 : (S : ℚ) ≤ uAt f x * fr := by
      have : (S : ℚ) * 2 ^ e ≤ (uAt f x * fr) * 2 ^ e := by
        calc (S : ℚ) * 2 ^ e ≤ uAt f x * le := b1'
          _ ≤ uAt f x * (fr * 2 ^ e) := mul_le_mul_of_nonneg_left hlele hfx
          _ = _ := by ring
      exact le_of_mul_le_mul_right this hp
    have hfac : factor = gr + fr := by rw [hgrc, hfr]; ring
    have htot : ((uAt f x * gr + S : Nat) : ℚ) ≤ uAt f x * factor := by
      push_cast
      rw [hfac]
      linarith
    have hbound : uAt f x * gr + S < 2 ^ (f.length + E) := by
      have h6 : (uAt f x : ℚ) < 2 ^ f.length := by exact_mod_cast uAt_lt f x
      have h7 : ((uAt f x * gr + S : Nat) : ℚ) < 2 ^ (f.length + E) := by
        calc ((uAt f x * gr + S : Nat) : ℚ) ≤ uAt f x * factor := htot
          _ ≤ uAt f x * 2 ^ E := mul_le_mul_of_nonneg_left hcE hfx
          _ < 2 ^ f.length * 2 ^ E := mul_lt_mul_of_pos_right h6 (by positivity)
          _ = 2 ^ (f.length + E) := (pow_add _ _ _).symm
      exact_mod_cast h7
    rw [Nat.mod_eq_of_lt hbound] at hv
    rw [hv]
    refine ⟨rfl, htot, ?_, ?_⟩
    · push_cast
      rw [hfac]
      have h8 : (uAt f x : ℚ) * fr ≤ S + e + uAt f x / 2 ^ e := by
        have : ((uAt f x : ℚ) * fr) * 2 ^ e ≤ (S + e + uAt f x / 2 ^ e) * 2 ^ e := by
          calc ((uAt f x : ℚ) * fr) * 2 ^ e = uAt f x * (fr * 2 ^ e) := by ring
            _ ≤ uAt f x * (le + 1) := mul_le_mul_of_nonneg_left hlege hfx
            _ = uAt f x * le + uAt f x := by ring
            _ ≤ (S + e) * 2 ^ e + uAt f x := by linarith
            _ = _ := by field_simp
        exact le_of_mul_le_mul_right this hp
      linarith
    · rintro hdv ⟨k, hk⟩
      have b3' : (S : ℚ) * 2 ^ e = uAt f x * le := by exact_mod_cast b3 hdv
      have hexact : (le : ℚ) = fr * 2 ^ e := by
        rw [hlec]
        have : fr * 2 ^ e = ((k - ⌊factor⌋ * 2 ^ e : ℤ) : ℚ) := by
          push_cast; rw [hfr, sub_mul, hk]
        rw [this, Int.floor_intCast]
      rw [hexact] at b3'
      have : (S : ℚ) = uAt f x * fr := by
        have h9 : (S : ℚ) * 2 ^ e = (uAt f x * fr) * 2 ^ e := by rw [b3']; ring
        exact mul_right_cancel₀ hp.ne' h9
      push_cast
      rw [this, hfac]; ring
  exact ⟨r1, r, hr1, hr, by omega, fun x => (hval x).1, fun x => (hval x).2⟩

theorem bddMultiplyConstantQ_spec (f : List (BDD m)) (factor : ℚ) (e : Nat) (h1 : 1 / 2 < factor)
    (h2 : factor < 2 ^ 256) (he : e < 64) :
    ∃ r, bddMultiplyConstantQ f factor e = .ok r ∧
      r.length = f.length + (Nat.clog 2 ⌈factor⌉.toNat + 2) ∧
      ∀ x, (uAt r x : ℚ) ≤ uAt f x * factor ∧
        (uAt f x : ℚ) * factor ≤ uAt r x + uAt f x / 2 ^ e + e ∧
        (2 ^ e ∣ uAt f x → (∃ k : ℤ, factor * 2 ^ e = k) → (uAt r x : ℚ) = uAt f x * factor) := by
  have hpos : 0 < factor := by linarith
  have hc : factor ≤ 2 ^ (Nat.clog 2 ⌈factor⌉.toNat + 2) := by
    have h3 : ⌈factor⌉.toNat ≤ 2 ^ Nat.clog 2 ⌈factor⌉.toNat := Nat.le_pow_clog (by norm_num) _
    have h4 : 0 ≤ ⌈factor⌉ := Int.ceil_nonneg hpos.le
    have h5 : factor ≤ (⌈factor⌉.toNat : ℚ) := by
      rw [← Int.cast_natCast (R := ℚ), Int.toNat_of_nonneg h4]
      exact Int.le_ceil _
    have h6 : factor ≤ 2 ^ Nat.clog 2 ⌈factor⌉.toNat := le_trans h5 (by exact_mod_cast h3)
    exact h6.trans (pow_le_pow_right₀ (by norm_num) (by omega))
  obtain ⟨r1, r, hr1, hr, hl, -, hv⟩ := mulFrac_core f factor e _ hpos h2 hc
  refine ⟨r, ?_, hl, hv⟩
  unfold bddMultiplyConstantQ
  rw [if_neg (by linarith), if_neg (by linarith), if_neg (by omega)]
  simp only [bind, Except.bind, hr1, hr]

end Verif

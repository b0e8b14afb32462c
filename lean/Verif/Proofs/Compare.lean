import Verif.Proofs.ShiftMul

/-!
# Lemmas for the comparisons, `bdd_max_one`, `bdd_divide` and `number_to_bdds`
-/

namespace Verif

variable {m : Mgr}

/-- Value of bits given most significant first, continuing from `acc`. -/
def msb (acc : Nat) (bs : List Bool) : Nat := bs.foldl (fun a b => 2 * a + b.toNat) acc

theorem msb_reverse (bs : List Bool) : msb 0 bs.reverse = uval bs := by
  rw [msb, List.foldl_reverse]
  induction bs with
  | nil => rfl
  | cons b bs ih =>
    rw [List.foldr_cons, ih, uval, Nat.add_comm]

theorem geLoop_spec (x : Asg) : ∀ (ps : List (BDD m × BDD m)) (zc ec res : BDD m) (F G : Nat),
    (zc.eval x = decide (G = 0)) → (ec.eval x = decide (F = G)) → (res.eval x = decide (F > G)) →
    (geLoop ps zc ec res).1.eval x = decide (msb F (ps.map (·.1.eval x)) > msb G (ps.map (·.2.eval x)))
    ∧ (geLoop ps zc ec res).2.eval x =
      decide (msb F (ps.map (·.1.eval x)) = msb G (ps.map (·.2.eval x)))
  | [], zc, ec, res, F, G, hz, he, hr => by simp [geLoop, msb, he, hr]
  | (a, b) :: ps, zc, ec, res, F, G, hz, he, hr => by
    have := geLoop_spec x ps (zc.and b.not) (ec.and ((a.and b).or (a.not.and b.not)))
      ((res.or (a.and (zc.and b.not))).or ((a.and b.not).and ec))
      (2 * F + (a.eval x).toNat) (2 * G + (b.eval x).toNat) ?_ ?_ ?_
    · exact this
    · simp only [BDD.eval_and, BDD.eval_not, hz]
      cases b.eval x <;> simp
    · simp only [BDD.eval_and, BDD.eval_or, BDD.eval_not, he]
      cases a.eval x <;> cases b.eval x <;> simp <;> omega
    · simp only [BDD.eval_and, BDD.eval_or, BDD.eval_not, he, hr, hz]
      cases a.eval x <;> cases b.eval x <;> simp
      · omega
      · apply Bool.eq_iff_iff.mpr
        simp
        omega

theorem pairsDown_fst (f g : List (BDD m)) (x : Asg) :
    msb 0 ((pairsDown f g).map (·.1.eval x)) = uAt f x := by
  have h : (pairsDown f g).map (fun p => p.1.eval x) = (bitsAt (equalize1 f g) x).reverse := by
    rw [pairsDown, List.map_reverse]
    congr 1
    have : (fun p : BDD m × BDD m => p.1.eval x) = (fun b : BDD m => b.eval x) ∘ Prod.fst := rfl
    rw [this, ← List.map_map, List.map_fst_zip]
    · rfl
    · simp only [equalize1, zeroExtend_length]; omega
  rw [h, msb_reverse]
  have := uAt_zeroExtend f g.length x
  simpa [uAt, equalize1] using this

theorem pairsDown_snd (f g : List (BDD m)) (x : Asg) :
    msb 0 ((pairsDown f g).map (·.2.eval x)) = uAt g x := by
  have h : (pairsDown f g).map (fun p => p.2.eval x) = (bitsAt (equalize1 g f) x).reverse := by
    rw [pairsDown, List.map_reverse]
    congr 1
    have : (fun p : BDD m × BDD m => p.2.eval x) = (fun b : BDD m => b.eval x) ∘ Prod.snd := rfl
    rw [this, ← List.map_map, List.map_snd_zip]
    · rfl
    · simp only [equalize1, zeroExtend_length]; omega
  rw [h, msb_reverse]
  have := uAt_zeroExtend g f.length x
  simpa [uAt, equalize1] using this

theorem greaterThan_eval (f g : List (BDD m)) (x : Asg) :
    (greaterThan f g).eval x = decide (uAt f x > uAt g x) := by
  have := (geLoop_spec x (pairsDown f g) .one .one .zero 0 0 (by simp) (by simp) (by simp)).1
  rw [pairsDown_fst, pairsDown_snd] at this
  exact this

theorem greaterEquals_eval (f g : List (BDD m)) (x : Asg) :
    (greaterEquals f g).eval x = decide (uAt f x ≥ uAt g x) := by
  have := geLoop_spec x (pairsDown f g) .one .one .zero 0 0 (by simp) (by simp) (by simp)
  rw [pairsDown_fst, pairsDown_snd] at this
  simp only [greaterEquals, BDD.eval_or, this.1, this.2]
  apply Bool.eq_iff_iff.mpr
  simp
  omega

theorem msb_lt {F G : Nat} : ∀ (as bs : List Bool), as.length = bs.length → F > G →
    msb F as > msb G bs
  | [], [], _, h => h
  | [], _ :: _, hl, _ => by simp at hl
  | _ :: _, [], hl, _ => by simp at hl
  | a :: as, b :: bs, hl, h => by
    have := msb_lt (F := 2 * F + a.toNat) (G := 2 * G + b.toNat) as bs (by simpa using hl) (by
      cases a <;> cases b <;> simp <;> omega)
    simpa [msb] using this

theorem existsGeLoop_spec : ∀ (ps : List (BDD m × BDD m)) (zc ec : BDD m) (F G : Asg → Nat),
    (∀ x, zc.eval x = decide (G x = 0)) → (∀ x, ec.eval x = decide (F x = G x)) →
    (∀ x, F x ≤ G x) →
    ((∃ x, msb (F x) (ps.map (·.1.eval x)) > msb (G x) (ps.map (·.2.eval x))) ∧
      existsGeLoop ps zc ec = (true, false)) ∨
    ((∀ x, msb (F x) (ps.map (·.1.eval x)) ≤ msb (G x) (ps.map (·.2.eval x))) ∧
      (((∃ x, msb (F x) (ps.map (·.1.eval x)) = msb (G x) (ps.map (·.2.eval x))) ∧
        existsGeLoop ps zc ec = (true, true)) ∨
      ((¬ ∃ x, msb (F x) (ps.map (·.1.eval x)) = msb (G x) (ps.map (·.2.eval x))) ∧
        existsGeLoop ps zc ec = (false, false))))
  | [], zc, ec, F, G, hz, he, hle => by
    right
    refine ⟨by simpa [msb] using hle, ?_⟩
    cases h : ec.isZero
    · left
      obtain ⟨x, hx⟩ := BDD.isZero_false_iff.mp h
      rw [he x] at hx
      exact ⟨⟨x, by simpa [msb] using hx⟩, by simp [existsGeLoop, h]⟩
    · right
      have h' := BDD.isZero_iff.mp h
      refine ⟨?_, by simp [existsGeLoop, h]⟩
      rintro ⟨x, hx⟩
      have := h' x
      rw [he x] at this
      simp [msb] at this hx
      exact this hx
  | (a, b) :: ps, zc, ec, F, G, hz, he, hle => by
    by_cases h1 : (a.and (zc.and b.not)).isZero = false
    · left
      obtain ⟨x, hx⟩ := BDD.isZero_false_iff.mp h1
      refine ⟨⟨x, ?_⟩, by simp [existsGeLoop, h1]⟩
      simp only [BDD.eval_and, BDD.eval_not, hz x, Bool.and_eq_true, decide_eq_true_eq,
        Bool.not_eq_true'] at hx
      have := msb_lt (F := 2 * F x + (a.eval x).toNat) (G := 2 * G x + (b.eval x).toNat)
        (ps.map (·.1.eval x)) (ps.map (·.2.eval x)) (by simp) (by simp [hx])
      simpa [msb] using this
    · by_cases h2 : ((a.and b.not).and ec).isZero = false
      · left
        obtain ⟨x, hx⟩ := BDD.isZero_false_iff.mp h2
        refine ⟨⟨x, ?_⟩, by simp [existsGeLoop, h2]⟩
        simp only [BDD.eval_and, BDD.eval_not, he x, Bool.and_eq_true, decide_eq_true_eq,
          Bool.not_eq_true'] at hx
        have := msb_lt (F := 2 * F x + (a.eval x).toNat) (G := 2 * G x + (b.eval x).toNat)
          (ps.map (·.1.eval x)) (ps.map (·.2.eval x)) (by simp) (by simp [hx])
        simpa [msb] using this
      · simp only [Bool.not_eq_false] at h1 h2
        have h2' := BDD.isZero_iff.mp h2
        have := existsGeLoop_spec ps (zc.and b.not) (ec.and ((a.and b).or (a.not.and b.not)))
          (fun x => 2 * F x + (a.eval x).toNat) (fun x => 2 * G x + (b.eval x).toNat) ?_ ?_ ?_
        · simpa [existsGeLoop, msb, h1, h2] using this
        · intro x
          simp only [BDD.eval_and, BDD.eval_not, hz x]
          cases b.eval x <;> simp
        · intro x
          simp only [BDD.eval_and, BDD.eval_or, BDD.eval_not, he x]
          cases a.eval x <;> cases b.eval x <;> simp <;> omega
        · intro x
          have h3 := h2' x
          have h4 := hle x
          simp only [BDD.eval_and, BDD.eval_not, he x] at h3
          cases ha : a.eval x <;> cases hb : b.eval x <;> simp [ha, hb] at h3 ⊢ <;> omega

theorem existsGreaterEquals_cases (f g : List (BDD m)) :
    ((∃ x, uAt f x > uAt g x) ∧ existsGreaterEquals f g = (true, false)) ∨
    ((∀ x, uAt f x ≤ uAt g x) ∧
      (((∃ x, uAt f x = uAt g x) ∧ existsGreaterEquals f g = (true, true)) ∨
      ((¬ ∃ x, uAt f x = uAt g x) ∧ existsGreaterEquals f g = (false, false)))) := by
  have := existsGeLoop_spec (pairsDown f g) .one .one (fun _ => 0) (fun _ => 0)
    (by simp) (by simp) (by simp)
  simp only [pairsDown_fst, pairsDown_snd] at this
  exact this

/-! ### `bdd_max_one` -/

theorem noneSet_eval (bs : List (BDD m)) (x : Asg) :
    (bs.foldr (fun c z => z.and c.not) BDD.one).eval x = decide (uAt bs x = 0) := by
  induction bs with
  | nil => rfl
  | cons b bs ih =>
    rw [Bool.eq_iff_iff, decide_eq_true_iff, uAt_cons, List.foldr_cons, BDD.eval_and, BDD.eval_not,
      ih, Bool.and_eq_true, decide_eq_true_iff]
    cases b.eval x <;> simp

theorem bddMaxOne_spec (f : List (BDD m)) (h : f ≠ []) :
    ∃ r, bddMaxOne f = .ok r ∧ r.length = f.length ∧ ∀ x, uAt r x = max 1 (uAt f x) := by
  cases f with
  | nil => exact absurd rfl h
  | cons b bs =>
    refine ⟨_, rfl, by simp, fun x => ?_⟩
    simp only [uAt_cons, BDD.eval_or, noneSet_eval]
    cases b.eval x
    · by_cases h0 : uAt bs x = 0
      · simp [h0]
      · simp [h0]; omega
    · simp

/-! ### `bdd_divide` -/

theorem uAt_map_and (f : List (BDD m)) (c : BDD m) (x : Asg) :
    uAt (f.map (·.and c)) x = if c.eval x then uAt f x else 0 := by
  induction f with
  | nil => simp
  | cons b bs ih =>
    simp only [List.map_cons, uAt_cons, ih, BDD.eval_and]
    cases c.eval x <;> simp

theorem divLoop_spec (g' : List (BDD m)) (e : Nat) (G : Asg → Nat) (K : Nat)
    (hG : ∀ x, uAt g' x = G x * 2 ^ e)
    (hK : ∀ x k, k < K → G x * 2 ^ k < 2 ^ g'.length) :
    ∀ (k : Nat) (temp : List (BDD m)), k ≤ K →
    ∃ r, divLoop g' e k temp = .ok r ∧ r.length = k ∧
      ∀ x, (0 < G x → uAt temp x < G x * 2 ^ k → uAt r.reverse x = uAt temp x / G x) ∧
        (G x = 0 → uAt r.reverse x + 1 = 2 ^ k)
  | 0, temp, _ => ⟨[], rfl, rfl, fun x => ⟨fun _ h => by
      simp only [List.reverse_nil, uAt_nil, pow_zero, Nat.mul_one] at h ⊢
      rw [Nat.div_eq_of_lt h], fun _ => rfl⟩⟩
  | k + 1, temp, hk => by
    set sh := shiftPure g' ((k : Int) - e) with hsh
    have hshv : ∀ x, uAt sh x = G x * 2 ^ k := by
      intro x
      by_cases hke : e ≤ k
      · have h1 : ((k : Int) - e) = ((k - e : Nat) : Int) := by omega
        rw [hsh, h1, uAt_shift_left, hG x, mul_assoc, ← pow_add, Nat.add_sub_cancel' hke]
        apply Nat.mod_eq_of_lt
        exact hK x k (by omega)
      · have h1 : ((k : Int) - e) = -((e - k : Nat) : Int) := by omega
        rw [hsh, h1, uAt_shift_right, hG x]
        have : 2 ^ e = 2 ^ k * 2 ^ (e - k) := by rw [← pow_add]; congr 1; omega
        rw [this, ← mul_assoc, Nat.mul_div_cancel _ (by positivity)]
    set cond := greaterEquals temp sh with hcond
    have hcv : ∀ x, cond.eval x = decide (uAt temp x ≥ G x * 2 ^ k) := fun x => by
      rw [hcond, greaterEquals_eval, hshv]
    set ts := sh.map (·.and cond) with hts
    obtain ⟨t', ht', htl, htv⟩ := bddSubtract_spec (equalize1 temp ts) (equalize1 ts temp) (by
      simp only [equalize1, zeroExtend_length]; omega)
    have htv' : ∀ x, uAt t' x = if uAt temp x ≥ G x * 2 ^ k then uAt temp x - G x * 2 ^ k
        else uAt temp x := by
      intro x
      have h1 := htv x
      have h2 : uAt (equalize1 ts temp) x = if uAt temp x ≥ G x * 2 ^ k then G x * 2 ^ k else 0 := by
        rw [equalize1, uAt_zeroExtend, hts, uAt_map_and, hcv, hshv]
        simp
      have h3 : uAt (equalize1 temp ts) x = uAt temp x := uAt_zeroExtend _ _ _
      have h4 := uAt_lt (equalize1 temp ts) x
      rw [h3] at h4
      rw [h2, h3] at h1
      have h5 : ((if uAt temp x ≥ G x * 2 ^ k then uAt temp x - G x * 2 ^ k
        else uAt temp x : Nat) : Int) = (uAt temp x : Int) -
          ((if uAt temp x ≥ G x * 2 ^ k then G x * 2 ^ k else 0 : Nat) : Int) := by
        split
        · rename_i h; rw [Nat.cast_sub h]
        · simp
      have h6 : (if uAt temp x ≥ G x * 2 ^ k then uAt temp x - G x * 2 ^ k
        else uAt temp x : Nat) < 2 ^ (equalize1 temp ts).length := by
        split <;> omega
      rw [← h5, Int.emod_eq_of_lt (by positivity) (by exact_mod_cast h6)] at h1
      exact_mod_cast h1
    obtain ⟨r, hr, hrl, hrv⟩ := divLoop_spec g' e G K hG hK k t' (by omega)
    refine ⟨cond :: r, ?_, by simp [hrl], fun x => ?_⟩
    · simp only [divLoop, bddShift_ok, bind, Except.bind]
      simp only [← hsh, ← hcond, ← hts, ht', hr]
    · obtain ⟨h1, h2⟩ := hrv x
      simp only [List.reverse_cons, uAt_append, List.length_reverse, hrl, uAt_cons, uAt_nil, hcv x]
      constructor
      · intro hpos hlt
        have ht := htv' x
        by_cases hc : uAt temp x ≥ G x * 2 ^ k
        · rw [if_pos hc] at ht
          have hlt' : uAt t' x < G x * 2 ^ k := by
            rw [ht]; rw [pow_succ] at hlt
            have : G x * (2 ^ k * 2) = G x * 2 ^ k + G x * 2 ^ k := by ring
            omega
          rw [h1 hpos hlt', ht]
          simp only [hc, decide_true, Bool.toNat_true]
          have : uAt temp x = (uAt temp x - G x * 2 ^ k) + G x * 2 ^ k := by omega
          conv_rhs => rw [this, Nat.add_mul_div_left _ _ hpos]
          ring
        · rw [if_neg hc] at ht
          rw [h1 hpos (by rw [ht]; omega), ht]
          simp [hc]
      · intro h0
        have := h2 h0
        simp only [h0, Nat.zero_mul, ge_iff_le, Nat.zero_le, decide_true, Bool.toNat_true, pow_succ]
        omega

/-! ### `number_to_bdds` -/

theorem popZeros_spec : ∀ (l : List (BDD m)), l ≠ [] →
    popZeros l ≠ [] ∧ (∀ x, uAt (popZeros l).reverse x = uAt l.reverse x) ∧
    (1 < (popZeros l).length → ∀ b, (popZeros l).head? = some b → b.isZero = false)
  | [], h => absurd rfl h
  | [b], _ => by simp [popZeros]
  | b :: c :: bs, _ => by
    unfold popZeros
    split
    · rename_i hz
      obtain ⟨h1, h2, h3⟩ := popZeros_spec (c :: bs) (by simp)
      refine ⟨h1, fun x => ?_, h3⟩
      rw [h2 x]
      simp only [List.reverse_cons, uAt_append, uAt_cons, uAt_nil]
      rw [BDD.isZero_iff.mp hz x]
      simp
    · rename_i hz
      refine ⟨by simp, fun x => rfl, fun _ b' hb' => ?_⟩
      simp only [List.head?_cons, Option.some.injEq] at hb'
      subst hb'
      simpa using hz

theorem uAt_const_bits (v n : Nat) (x : Asg) :
    uAt ((List.range n).map fun i => if v.testBit i then (BDD.one : BDD m) else .zero) x
      = v % 2 ^ n := by
  apply Nat.eq_of_testBit_eq
  intro i
  rw [uAt_testBit, Nat.testBit_mod_two_pow]
  by_cases hi : i < n
  · simp only [List.getD_eq_getElem?_getD, List.getElem?_map, List.getElem?_range hi, Option.map_some,
      Option.getD_some, hi, decide_true, Bool.true_and]
    split <;> simp_all
  · simp [List.getD_eq_getElem?_getD, hi]

end Verif

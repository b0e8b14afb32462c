import Verif.Proofs.Relative
import Verif.Props.Nodes

/-!
# Lemmas about the relative error searches
-/

namespace Verif

variable {m : Mgr}

/-! ## Common -/

theorem mulC (f : List (BDD m)) (c : Nat) (h : c < 2 ^ 256) :
    ∃ r, bddMultiplyConstant f c = .ok r ∧ ∀ x, uAt r x = uAt f x * c := C07_multiply_constant f c h

/-- The three outcomes of comparing `D/F` with `c/e`. -/
theorem hasGe_cases (D F : List (BDD m)) (c e : Nat) (hc : c < 2 ^ 256) (he : e < 2 ^ 256) :
    ((∃ x, uAt D x * e > uAt F x * c) ∧ hasGreaterEqualBoth D F c e = .ok (true, false)) ∨
    ((∀ x, uAt D x * e ≤ uAt F x * c) ∧
      (((∃ x, uAt D x * e = uAt F x * c) ∧ hasGreaterEqualBoth D F c e = .ok (true, true)) ∨
      ((¬ ∃ x, uAt D x * e = uAt F x * c) ∧ hasGreaterEqualBoth D F c e = .ok (false, false)))) := by
  obtain ⟨r1, h1, v1⟩ := mulC D e he
  obtain ⟨r2, h2, v2⟩ := mulC F c hc
  have := existsGreaterEquals_cases r1 r2
  simp only [v1, v2] at this
  simp only [hasGreaterEqualBoth, h1, h2, bind, Except.bind]
  rcases this with ⟨a, b⟩ | ⟨a, ⟨b, c⟩ | ⟨b, c⟩⟩
  · exact .inl ⟨a, by rw [b]⟩
  · exact .inr ⟨a, .inl ⟨b, by rw [c]⟩⟩
  · exact .inr ⟨a, .inr ⟨b, by rw [c]⟩⟩

theorem ratio_le {D F : List (BDD m)} {x : Asg} {c e : Nat} (hF : 0 < uAt F x) (he : 0 < e) :
    (uAt D x : ℚ) / uAt F x ≤ c / e ↔ uAt D x * e ≤ uAt F x * c := by
  rw [div_le_div_iff₀ (by exact_mod_cast hF) (by exact_mod_cast he), mul_comm (c : ℚ)]
  exact_mod_cast Iff.rfl

theorem ratio_eq {D F : List (BDD m)} {x : Asg} {c e : Nat} (hF : 0 < uAt F x) (he : 0 < e) :
    (uAt D x : ℚ) / uAt F x = c / e ↔ uAt D x * e = uAt F x * c := by
  rw [div_eq_div_iff (by exact_mod_cast hF.ne') (by exact_mod_cast he.ne'), mul_comm (c : ℚ)]
  exact_mod_cast Iff.rfl

/-- `c/e` is the maximal quotient, without division. -/
def MaxFrac (D F : List (BDD m)) (c e : Nat) : Prop :=
  (∃ x, uAt D x * e = uAt F x * c) ∧ ∀ x, uAt D x * e ≤ uAt F x * c

theorem MaxFrac.isMax {D F : List (BDD m)} {c e : Nat} (hF : ∀ x, 0 < uAt F x) (he : 0 < e)
    (h : MaxFrac D F c e) : IsMax (fun x => (uAt D x : ℚ) / uAt F x) (c / e) := by
  obtain ⟨⟨x, hx⟩, hle⟩ := h
  exact ⟨⟨x, (ratio_eq (hF x) he).mpr hx⟩, fun y => (ratio_le (hF y) he).mpr (hle y)⟩

theorem all_isZero_iff (D : List (BDD m)) : D.all (·.isZero) = true ↔ ∀ x, uAt D x = 0 := by
  induction D with
  | nil => simp
  | cons b D ih =>
    rw [List.all_cons, Bool.and_eq_true, ih, BDD.isZero_iff]
    constructor
    · rintro ⟨h1, h2⟩ x
      rw [uAt_cons, h1 x, h2 x]; rfl
    · intro h
      constructor
      · intro x
        have := h x
        rw [uAt_cons] at this
        cases hb : b.eval x
        · rfl
        · rw [hb] at this; simp at this
      · intro x
        have := h x
        rw [uAt_cons] at this
        omega

/-! ## `wcre_randomized_search` -/

theorem toLong_eq {n : Nat} (h : n < 2 ^ 63) : toLong n = n := by
  unfold toLong; omega

theorem uAt_lt' {f : List (BDD m)} {k : Nat} (h : f.length ≤ k) (x : Asg) : uAt f x < 2 ^ k :=
  lt_of_lt_of_le (uAt_lt f x) (Nat.pow_le_pow_right (by norm_num) h)

/-- What the doubling loops establish. -/
def StartOk (D F : List (BDD m)) : Nat × Nat ⊕ Nat × Nat → Prop
  | .inl (c, e) => 0 < e ∧ MaxFrac D F c e ∧ ∃ k, (c = 2 ^ k ∧ e = 1) ∨ (c = 1 ∧ e = 2 ^ k)
  | .inr (c, e) => 0 < c ∧ 0 < e ∧ c < 2 ^ 63 ∧ e < 2 ^ 63 ∧ ∃ x, uAt D x * e > uAt F x * c

theorem doubleCounter_spec (D F : List (BDD m)) (hF : ∀ x, 0 < uAt F x) (hD : D.length ≤ 62) :
    ∀ (fuel k : Nat), (∃ x, uAt D x > uAt F x * 2 ^ k) →
    (doubleCounter D F fuel (2 ^ k) = .error .fuel ∧ fuel + k < 62) ∨
      ∃ s, doubleCounter D F fuel (2 ^ k) = .ok s ∧ StartOk D F s
  | 0, k, ⟨x, hx⟩ => by
      refine .inl ⟨rfl, ?_⟩
      have h1 : 2 ^ k < 2 ^ 62 := lt_of_le_of_lt (Nat.le_mul_of_pos_left _ (hF x))
        (lt_trans hx (uAt_lt' hD x))
      have := (Nat.pow_lt_pow_iff_right (by norm_num : 1 < 2)).mp h1
      omega
  | fuel + 1, k, ⟨x, hx⟩ => by
      have h1 : 2 ^ k < 2 ^ 62 := lt_of_le_of_lt (Nat.le_mul_of_pos_left _ (hF x))
        (lt_trans hx (uAt_lt' hD x))
      have hk : k < 62 := (Nat.pow_lt_pow_iff_right (by norm_num : 1 < 2)).mp h1
      have hu : u256 (2 ^ k * 2) = 2 ^ (k + 1) := by
        unfold u256
        rw [← pow_succ]
        exact Nat.mod_eq_of_lt (Nat.pow_lt_pow_right (by norm_num) (by omega))
      have hlt : 2 ^ (k + 1) < 2 ^ 63 * 2 := by
        calc 2 ^ (k + 1) < 2 ^ 64 := Nat.pow_lt_pow_right (by norm_num) (by omega)
          _ = _ := by norm_num
      unfold doubleCounter
      rw [hu]
      rcases hasGe_cases D F (2 ^ (k + 1)) 1 (by omega) (by norm_num) with
        ⟨⟨y, hy⟩, h⟩ | ⟨hle, ⟨⟨y, hy⟩, h⟩ | ⟨hn, h⟩⟩
      · simp only [h, bind, Except.bind]
        rcases doubleCounter_spec D F hF hD fuel (k + 1) ⟨y, by omega⟩ with ⟨h2, h3⟩ | h2
        · exact .inl ⟨by simpa using h2, by omega⟩
        · exact .inr (by simpa using h2)
      · have hb : 2 ^ (k + 1) < 2 ^ 63 := by
          have := Nat.le_mul_of_pos_left (2 ^ (k + 1)) (hF y)
          have := uAt_lt' hD y
          omega
        refine .inr ⟨.inl (2 ^ (k + 1), 1), by simp [h, bind, Except.bind, toLong_eq hb],
          by norm_num, ⟨⟨y, hy⟩, hle⟩, k + 1, .inl ⟨rfl, rfl⟩⟩
      · refine .inr ⟨.inr (2 ^ (k + 1) / 2, 1), by simp [h, bind, Except.bind], ?_⟩
        rw [pow_succ, Nat.mul_div_cancel _ (by norm_num)]
        exact ⟨by positivity, by norm_num, by omega, by norm_num, x, by omega⟩

theorem doubleDenominator_spec (D F : List (BDD m)) (hF : ∀ x, 0 < uAt F x) (hFl : F.length ≤ 62)
    (hD : ∃ x, uAt D x ≠ 0) :
    ∀ (fuel k : Nat), (∀ x, uAt D x * 2 ^ k < uAt F x) →
    (doubleDenominator D F fuel (2 ^ k) = .error .fuel ∧ fuel + k < 62) ∨
      ∃ s, doubleDenominator D F fuel (2 ^ k) = .ok s ∧ StartOk D F s
  | 0, k, hlt => by
      refine .inl ⟨rfl, ?_⟩
      obtain ⟨x, hx⟩ := hD
      have h1 : 2 ^ k < 2 ^ 62 := lt_of_le_of_lt (Nat.le_mul_of_pos_left _ (Nat.pos_of_ne_zero hx))
        (lt_trans (hlt x) (uAt_lt' hFl x))
      have := (Nat.pow_lt_pow_iff_right (by norm_num : 1 < 2)).mp h1
      omega
  | fuel + 1, k, hlt => by
      obtain ⟨x, hx⟩ := hD
      have h1 : 2 ^ k < 2 ^ 62 := lt_of_le_of_lt (Nat.le_mul_of_pos_left _ (Nat.pos_of_ne_zero hx))
        (lt_trans (hlt x) (uAt_lt' hFl x))
      have hk : k < 62 := (Nat.pow_lt_pow_iff_right (by norm_num : 1 < 2)).mp h1
      have hu : u256 (2 ^ k * 2) = 2 ^ (k + 1) := by
        unfold u256
        rw [← pow_succ]
        exact Nat.mod_eq_of_lt (Nat.pow_lt_pow_right (by norm_num) (by omega))
      have hlt' : 2 ^ (k + 1) < 2 ^ 63 := by rw [pow_succ]; omega
      have hpos : 0 < 2 ^ (k + 1) := by positivity
      unfold doubleDenominator
      rw [hu]
      rcases hasGe_cases D F 1 (2 ^ (k + 1)) (by norm_num) (by omega) with
        ⟨⟨y, hy⟩, h⟩ | ⟨hle, ⟨⟨y, hy⟩, h⟩ | ⟨hn, h⟩⟩
      · exact .inr ⟨.inr (1, 2 ^ (k + 1)), by simp [h, bind, Except.bind],
          by norm_num, hpos, by norm_num, hlt', y, hy⟩
      · exact .inr ⟨.inl (1, 2 ^ (k + 1)), by simp [h, bind, Except.bind, toLong_eq hlt'],
          hpos, ⟨⟨y, hy⟩, hle⟩, k + 1, .inr ⟨rfl, rfl⟩⟩
      · simp only [h, bind, Except.bind]
        rcases doubleDenominator_spec D F hF hFl ⟨x, hx⟩ fuel (k + 1) (fun y => by
          have h2 := hle y
          have h3 : uAt D y * 2 ^ (k + 1) ≠ uAt F y * 1 := fun h => hn ⟨y, h⟩
          omega) with ⟨h2, h3⟩ | h2
        · exact .inl ⟨by simpa using h2, by omega⟩
        · exact .inr (by simpa using h2)

/-- Values reached by the sampling loop: the start, or the quotient at an input, with at least the
value of the start. -/
def Reached (D F : List (BDD m)) (cd cd' : Nat × Nat) : Prop :=
  cd' = cd ∨ (0 < cd'.1 ∧ cd.1 * cd'.2 < cd'.1 * cd.2 ∧ ∃ x, cd' = (uAt D x, uAt F x))

theorem sampleLoop_spec (D F : List (BDD m)) (hF : ∀ x, 0 < uAt F x) (hD : D.length ≤ 62)
    (hFl : F.length ≤ 62) (gr : BDD m) (n : Nat) (rs : Nat → Nat → Nat) :
    ∀ (k i : Nat) (cd cd' : Nat × Nat), cd.1 < 2 ^ 63 → 0 < cd.2 → cd.2 < 2 ^ 63 →
    sampleLoop D F gr n rs k i cd = .ok cd' → Reached D F cd cd'
  | 0, i, cd, cd', _, _, _, h => by
      simp only [sampleLoop, Except.ok.injEq] at h
      exact .inl h.symm
  | k + 1, i, cd, cd', h1, h2, h3, h => by
      simp only [sampleLoop, bind, Except.bind] at h
      split at h
      · simp at h
      rename_i inp hinp
      split at h
      · simp at h
      rename_i tc htc
      split at h
      · simp at h
      rename_i td htd
      have etc := C16_eval_sound D inp tc htc
      have etd := C16_eval_sound F inp td htd
      set x := asgOf inp
      have b1 : uAt D x < 2 ^ 62 := uAt_lt' hD x
      have b2 : uAt F x < 2 ^ 62 := uAt_lt' hFl x
      have u1 : u256 (tc * cd.2) = tc * cd.2 := by
        unfold u256
        apply Nat.mod_eq_of_lt
        calc tc * cd.2 ≤ 2 ^ 62 * 2 ^ 63 := Nat.mul_le_mul (by omega) h3.le
          _ < 2 ^ 256 := by norm_num
      have u2 : u256 (cd.1 * td) = cd.1 * td := by
        unfold u256
        apply Nat.mod_eq_of_lt
        calc cd.1 * td ≤ 2 ^ 63 * 2 ^ 62 := Nat.mul_le_mul h1.le (by omega)
          _ < 2 ^ 256 := by norm_num
      rw [u1, u2] at h
      split at h
      · rename_i hgt
        have hpos : 0 < tc := by
          rcases Nat.eq_zero_or_pos tc with h0 | h0
          · rw [h0] at hgt; simp at hgt
          · exact h0
        have htd0 : 0 < td := by rw [etd]; exact hF x
        rcases sampleLoop_spec D F hF hD hFl gr n rs k (i + 1) (tc, td) cd' (by simp only; omega)
          htd0 (by simp only; omega) h with he | ⟨p1, p2, p3⟩
        · right
          rw [he]
          exact ⟨hpos, hgt, x, by rw [etc, etd]⟩
        · right
          refine ⟨p1, ?_, p3⟩
          simp only at p2
          -- cd.1/cd.2 < tc/td < cd'.1/cd'.2
          have q1 : cd.1 * td * cd'.2 ≤ tc * cd.2 * cd'.2 := Nat.mul_le_mul_right _ hgt.le
          have q2 : tc * cd'.2 * cd.2 < cd'.1 * td * cd.2 := Nat.mul_lt_mul_of_pos_right p2 h2
          have q3 : (cd.1 * cd'.2) * td < (cd'.1 * cd.2) * td := by
            calc (cd.1 * cd'.2) * td = cd.1 * td * cd'.2 := by ring
              _ ≤ tc * cd.2 * cd'.2 := q1
              _ = tc * cd'.2 * cd.2 := by ring
              _ < cd'.1 * td * cd.2 := q2
              _ = _ := by ring
          exact lt_of_mul_lt_mul_right q3 (Nat.zero_le _)
      · exact sampleLoop_spec D F hF hD hFl gr n rs k (i + 1) cd cd' h1 h2 h3 h

/-- Invariant of the main loop. -/
structure LoopInv (D F : List (BDD m)) (c0 e0 c e : Nat) : Prop where
  c_pos : 0 < c
  e_pos : 0 < e
  c_lt : c < 2 ^ 63
  e_lt : e < 2 ^ 63
  ge : c0 * e ≤ c * e0
  witness : (∃ x, uAt D x * e > uAt F x * c) ∨ ∃ x, uAt D x * e = uAt F x * c

theorem LoopInv.reduce {D F : List (BDD m)} {c0 e0 c e : Nat} (h : LoopInv D F c0 e0 c e) :
    LoopInv D F c0 e0 (c / Nat.gcd c e) (e / Nat.gcd c e) := by
  obtain ⟨h1, h2, h3, h4, h5, h6⟩ := h
  set g := Nat.gcd c e with hg
  have hgp : 0 < g := Nat.gcd_pos_of_pos_left _ h1
  obtain ⟨c', hc⟩ := Nat.gcd_dvd_left c e
  obtain ⟨e', he⟩ := Nat.gcd_dvd_right c e
  rw [← hg] at hc he
  have hc' : c / g = c' := by rw [hc, Nat.mul_div_cancel_left _ hgp]
  have he' : e / g = e' := by rw [he, Nat.mul_div_cancel_left _ hgp]
  rw [hc', he']
  have hcl : c' ≤ c := by rw [hc]; exact Nat.le_mul_of_pos_left _ hgp
  have hel : e' ≤ e := by rw [he]; exact Nat.le_mul_of_pos_left _ hgp
  refine ⟨?_, ?_, by omega, by omega, ?_, ?_⟩
  · rcases Nat.eq_zero_or_pos c' with h | h
    · rw [h] at hc; omega
    · exact h
  · rcases Nat.eq_zero_or_pos e' with h | h
    · rw [h] at he; omega
    · exact h
  · rw [hc, he] at h5
    have : g * (c0 * e') ≤ g * (c' * e0) := by
      calc g * (c0 * e') = c0 * (g * e') := by ring
        _ ≤ g * c' * e0 := h5
        _ = _ := by ring
    exact Nat.le_of_mul_le_mul_left this hgp
  · have key : ∀ x, uAt D x * e = g * (uAt D x * e') ∧ uAt F x * c = g * (uAt F x * c') := by
      intro x
      rw [hc, he]
      constructor <;> ring
    rcases h6 with ⟨x, hx⟩ | ⟨x, hx⟩
    · rw [(key x).1, (key x).2] at hx
      exact .inl ⟨x, lt_of_mul_lt_mul_left hx (Nat.zero_le _)⟩
    · rw [(key x).1, (key x).2] at hx
      exact .inr ⟨x, Nat.eq_of_mul_eq_mul_left hgp hx⟩

theorem LoopInv.reached {D F : List (BDD m)} {c0 e0 : Nat} {cd cd' : Nat × Nat}
    (h : LoopInv D F c0 e0 cd.1 cd.2) (hF : ∀ x, 0 < uAt F x) (hD : D.length ≤ 62)
    (hFl : F.length ≤ 62) (hr : Reached D F cd cd') : LoopInv D F c0 e0 cd'.1 cd'.2 := by
  rcases hr with rfl | ⟨h1, h2, x, h3⟩
  · exact h
  · have b1 := uAt_lt' hD x
    have b2 := uAt_lt' hFl x
    have e1 : cd'.1 = uAt D x := by rw [h3]
    have e2 : cd'.2 = uAt F x := by rw [h3]
    have e3 := hF x
    refine ⟨h1, by omega, by omega, by omega, ?_, .inr ⟨x, by rw [e1, e2, Nat.mul_comm]⟩⟩
    have q : (c0 * cd'.2) * cd.2 ≤ (cd'.1 * e0) * cd.2 := by
      calc (c0 * cd'.2) * cd.2 = c0 * cd.2 * cd'.2 := by ring
        _ ≤ cd.1 * e0 * cd'.2 := Nat.mul_le_mul_right _ h.ge
        _ = cd.1 * cd'.2 * e0 := by ring
        _ ≤ cd'.1 * cd.2 * e0 := Nat.mul_le_mul_right _ h2.le
        _ = _ := by ring
    exact Nat.le_of_mul_le_mul_right q h.e_pos

/-- The set `greater` of the main loop. -/
theorem greater_spec (D F : List (BDD m)) (lg : BDD m) (c0 e0 c e : Nat) (he0 : 0 < e0)
    (hlg : ∀ x, lg.eval x = true ↔ uAt D x * e0 > uAt F x * c0) (h : LoopInv D F c0 e0 c e) :
    ∃ r1 r2, bddMultiplyConstant (D.map (·.and lg)) e = .ok r1 ∧
      bddMultiplyConstant (F.map (·.and lg)) c = .ok r2 ∧
      ∀ x, (greaterThan r1 r2).eval x = true ↔ uAt D x * e > uAt F x * c := by
  obtain ⟨r1, h1, v1⟩ := mulC (D.map (·.and lg)) e (by have := h.e_lt; omega)
  obtain ⟨r2, h2, v2⟩ := mulC (F.map (·.and lg)) c (by have := h.c_lt; omega)
  refine ⟨r1, r2, h1, h2, fun x => ?_⟩
  rw [greaterThan_eval, decide_eq_true_eq, v1, v2, uAt_masked, uAt_masked]
  split
  · rfl
  · rename_i hx
    rw [hlg] at hx
    constructor
    · intro hc; simp at hc
    · intro hgt
      exfalso
      apply hx
      have q : uAt F x * c0 * e < uAt D x * e0 * e := by
        calc uAt F x * c0 * e = uAt F x * (c0 * e) := by ring
          _ ≤ uAt F x * (c * e0) := Nat.mul_le_mul_left _ h.ge
          _ = uAt F x * c * e0 := by ring
          _ < uAt D x * e * e0 := Nat.mul_lt_mul_of_pos_right hgt he0
          _ = _ := by ring
      exact lt_of_mul_lt_mul_right q (Nat.zero_le _)

theorem randomizedLoop_spec (D F : List (BDD m)) (hF : ∀ x, 0 < uAt F x) (hD : D.length ≤ 62)
    (hFl : F.length ≤ 62) (lg : BDD m) (c0 e0 : Nat) (he0 : 0 < e0)
    (hlg : ∀ x, lg.eval x = true ↔ uAt D x * e0 > uAt F x * c0) (n samples : Nat)
    (rs : Nat → Nat → Nat → Nat) : ∀ (fuel j : Nat) (cd res : Nat × Nat),
    LoopInv D F c0 e0 cd.1 cd.2 → randomizedLoop D F lg n samples rs fuel j cd = .ok res →
    0 < res.2 ∧ MaxFrac D F res.1 res.2
  | 0, j, cd, res, _, h => by simp [randomizedLoop] at h
  | fuel + 1, j, cd, res, hinv, h => by
      have hr := hinv.reduce
      obtain ⟨r1, r2, h1, h2, hg⟩ := greater_spec D F lg c0 e0 _ _ he0 hlg hr
      simp only [randomizedLoop, h1, h2, bind, Except.bind] at h
      split at h
      · rename_i hz
        rw [BDD.isZero_iff] at hz
        simp only [Except.ok.injEq] at h
        rw [← h, toLong_eq hr.c_lt, toLong_eq hr.e_lt]
        have hle : ∀ x, uAt D x * (cd.2 / cd.1.gcd cd.2) ≤ uAt F x * (cd.1 / cd.1.gcd cd.2) := by
          intro x
          by_contra hc
          have := (hg x).mpr (by omega)
          rw [hz] at this
          simp at this
        refine ⟨hr.e_pos, ?_, hle⟩
        rcases hr.witness with ⟨x, hx⟩ | hx
        · exact absurd (hle x) (by omega)
        · exact hx
      · split at h
        · simp at h
        rename_i cd' hcd'
        have hrch := sampleLoop_spec D F hF hD hFl _ n (rs j) samples 0 _ cd' hr.c_lt hr.e_pos
          hr.e_lt hcd'
        exact randomizedLoop_spec D F hF hD hFl lg c0 e0 he0 hlg n samples rs fuel (j + 1) cd' res
          (hr.reached hF hD hFl hrch) h

/-- The state in which the main loop is entered. -/
theorem randomizedSearch_cases (D F : List (BDD m)) (hF : ∀ x, 0 < uAt F x) (hD : D.length ≤ 62)
    (hFl : F.length ≤ 62) (n samples : Nat) (rs : Nat → Nat → Nat → Nat) (fuel : Nat) :
    (∃ c e, randomizedSearch D F n samples rs fuel = .ok (c, e) ∧ 0 < e ∧ MaxFrac D F c e ∧
      ((c = 0 ∧ e = 1) ∨ ∃ k, (c = 2 ^ k ∧ e = 1) ∨ (c = 1 ∧ e = 2 ^ k))) ∨
    (randomizedSearch D F n samples rs fuel = .error .fuel ∧ fuel < 62) ∨
    ∃ c e lg, 0 < e ∧ (∀ x, lg.eval x = true ↔ uAt D x * e > uAt F x * c) ∧ LoopInv D F c e c e ∧
      (∃ x, uAt D x * e > uAt F x * c) ∧
      randomizedSearch D F n samples rs fuel = randomizedLoop D F lg n samples rs fuel 0 (c, e) := by
  unfold randomizedSearch
  by_cases hz : D.all (·.isZero) = true
  · rw [if_pos hz]
    rw [all_isZero_iff] at hz
    exact .inl ⟨0, 1, rfl, by norm_num, ⟨⟨fun _ => false, by simp [hz]⟩, by simp [hz]⟩,
      .inl ⟨rfl, rfl⟩⟩
  · rw [if_neg hz]
    rw [all_isZero_iff, not_forall] at hz
    have cont : ∀ s, StartOk D F s →
        (∃ c e, (match s with
          | .inl res => (.ok res : Except Fault (Nat × Nat))
          | .inr (counter, denominator) => do
            let bddDenom ← bddMultiplyConstant D denominator
            let bddCounter ← bddMultiplyConstant F counter
            randomizedLoop D F (greaterThan bddDenom bddCounter) n samples rs fuel 0
              (counter, denominator)) = .ok (c, e) ∧ 0 < e ∧ MaxFrac D F c e ∧
          ((c = 0 ∧ e = 1) ∨ ∃ k, (c = 2 ^ k ∧ e = 1) ∨ (c = 1 ∧ e = 2 ^ k))) ∨
        ∃ c e lg, 0 < e ∧ (∀ x, lg.eval x = true ↔ uAt D x * e > uAt F x * c) ∧
          LoopInv D F c e c e ∧ (∃ x, uAt D x * e > uAt F x * c) ∧ (match s with
          | .inl res => (.ok res : Except Fault (Nat × Nat))
          | .inr (counter, denominator) => do
            let bddDenom ← bddMultiplyConstant D denominator
            let bddCounter ← bddMultiplyConstant F counter
            randomizedLoop D F (greaterThan bddDenom bddCounter) n samples rs fuel 0
              (counter, denominator)) = randomizedLoop D F lg n samples rs fuel 0 (c, e) := by
      intro s hs
      rcases s with ⟨c, e⟩ | ⟨c, e⟩
      · obtain ⟨h1, h2, h3⟩ := hs
        exact .inl ⟨c, e, rfl, h1, h2, .inr h3⟩
      · obtain ⟨h1, h2, h3, h4, h5⟩ := hs
        obtain ⟨r1, hr1, v1⟩ := mulC D e (by omega)
        obtain ⟨r2, hr2, v2⟩ := mulC F c (by omega)
        refine .inr ⟨c, e, greaterThan r1 r2, h2, fun x => ?_, ⟨h1, h2, h3, h4, le_rfl, .inl h5⟩, h5,
          by simp only [hr1, hr2, bind, Except.bind]⟩
        rw [greaterThan_eval, decide_eq_true_eq, v1, v2]
    rcases hasGe_cases D F 1 1 (by norm_num) (by norm_num) with
        ⟨⟨y, hy⟩, h⟩ | ⟨hle, ⟨⟨y, hy⟩, h⟩ | ⟨hn, h⟩⟩
    · simp only [h, bind, Except.bind, Bool.false_eq_true, if_false, if_true]
      rcases doubleCounter_spec D F hF hD fuel 0 ⟨y, by omega⟩ with ⟨h2, h3⟩ | ⟨s, hs, hok⟩
      · rw [pow_zero] at h2
        exact .inr (.inl ⟨by rw [h2], by omega⟩)
      · rw [pow_zero] at hs
        rw [hs]
        rcases cont s hok with h | h
        · exact .inl h
        · exact .inr (.inr h)
    · simp only [h, bind, Except.bind, if_true]
      exact .inl ⟨1, 1, rfl, by norm_num, ⟨⟨y, hy⟩, hle⟩, .inr ⟨0, .inl ⟨by norm_num, rfl⟩⟩⟩
    · simp only [h, bind, Except.bind, Bool.false_eq_true, if_false]
      rcases doubleDenominator_spec D F hF hFl hz fuel 0 (fun x => by
          have h1 := hle x
          have h2 : uAt D x * 1 ≠ uAt F x * 1 := fun h => hn ⟨x, h⟩
          omega) with ⟨h2, h3⟩ | ⟨s, hs, hok⟩
      · rw [pow_zero] at h2
        exact .inr (.inl ⟨by rw [h2], by omega⟩)
      · rw [pow_zero] at hs
        rw [hs]
        rcases cont s hok with h | h
        · exact .inl h
        · exact .inr (.inr h)

theorem randomizedSearch_sound (D F : List (BDD m)) (hF : ∀ x, 0 < uAt F x) (hD : D.length ≤ 62)
    (hFl : F.length ≤ 62) (n samples : Nat) (rs : Nat → Nat → Nat → Nat) (fuel : Nat)
    (res : Nat × Nat) (h : randomizedSearch D F n samples rs fuel = .ok res) :
    0 < res.2 ∧ MaxFrac D F res.1 res.2 := by
  rcases randomizedSearch_cases D F hF hD hFl n samples rs fuel with
    ⟨c, e, h1, h2, h3, _⟩ | ⟨h1, _⟩ | ⟨c, e, lg, h1, h2, h3, _, h4⟩
  · rw [h1, Except.ok.injEq] at h
    rw [← h]; exact ⟨h2, h3⟩
  · rw [h1] at h; simp at h
  · rw [h4] at h
    exact randomizedLoop_spec D F hF hD hFl lg c e h1 h2 n samples rs fuel 0 (c, e) res h3 h

/-! ### Termination -/

theorem gcd_reduce {c e : Nat} (hc : 0 < c) (a b : Nat) :
    a * (e / Nat.gcd c e) > b * (c / Nat.gcd c e) ↔ a * e > b * c := by
  set g := Nat.gcd c e with hg
  have hgp : 0 < g := Nat.gcd_pos_of_pos_left _ hc
  obtain ⟨c', hc'⟩ := Nat.gcd_dvd_left c e
  obtain ⟨e', he'⟩ := Nat.gcd_dvd_right c e
  rw [← hg] at hc' he'
  have h1 : c / g = c' := by rw [hc', Nat.mul_div_cancel_left _ hgp]
  have h2 : e / g = e' := by rw [he', Nat.mul_div_cancel_left _ hgp]
  rw [h1, h2, hc', he', show a * (g * e') = g * (a * e') by ring,
    show b * (g * c') = g * (b * c') by ring]
  exact (Nat.mul_lt_mul_left hgp).symm

/-- Without samples the main loop never ends. -/
theorem randomizedLoop_no_samples (D F : List (BDD m)) (lg : BDD m) (c0 e0 : Nat) (he0 : 0 < e0)
    (hlg : ∀ x, lg.eval x = true ↔ uAt D x * e0 > uAt F x * c0) (n : Nat)
    (rs : Nat → Nat → Nat → Nat) : ∀ (fuel j : Nat) (cd : Nat × Nat),
    LoopInv D F c0 e0 cd.1 cd.2 → (∃ x, uAt D x * cd.2 > uAt F x * cd.1) →
    randomizedLoop D F lg n 0 rs fuel j cd = .error .fuel
  | 0, j, cd, _, _ => rfl
  | fuel + 1, j, cd, hinv, ⟨x, hx⟩ => by
      have hr := hinv.reduce
      obtain ⟨r1, r2, h1, h2, hg⟩ := greater_spec D F lg c0 e0 _ _ he0 hlg hr
      have hx' := (gcd_reduce hinv.c_pos (uAt D x) (uAt F x) (e := cd.2)).mpr hx
      have hnz : (greaterThan r1 r2).isZero = false := BDD.isZero_false_iff.mpr ⟨x, (hg x).mpr hx'⟩
      simp only [randomizedLoop, h1, h2, bind, Except.bind, hnz, sampleLoop]
      exact randomizedLoop_no_samples D F lg c0 e0 he0 hlg n rs fuel (j + 1) _ hr ⟨x, hx'⟩

theorem fits_of_eval' {b : BDD m} {N : Nat}
    (h : ∀ x y : Asg, (∀ v, v < N → x v = y v) → b.eval x = b.eval y) : Fits N [b] := by
  apply fits_of_uAt
  intro x y hxy
  rw [uAt_cons, uAt_cons, h x y hxy]; rfl

theorem uAt_agree {f : List (BDD m)} {N : Nat} (h : Fits N f) {x y : Asg}
    (hxy : ∀ v, v < N → x v = y v) : uAt f x = uAt f y := by
  rw [uAt, uAt, bitsAt_agree h hxy]

/-- A sample of the set `gr` evaluates without undefined behaviour. -/
theorem sample_ok (hm : m.Mono) (D F : List (BDD m)) (hD : D.length ≤ 62) (hFl : F.length ≤ 62)
    (gr : BDD m) (n : Nat) (hDN : Fits n D) (hFN : Fits n F) (hgN : Fits n [gr])
    (hgr : ∃ x, gr.eval x = true) (rs : Nat → Nat) (hrs : ∀ i, rs i ≠ 0 ∧ rs i ≤ randMax) :
    ∃ inp, randomSatisfyingInput gr (countMinterms gr) n rs = .ok inp ∧
      evalFn D inp = .ok (uAt D (asgOf inp)) ∧ evalFn F inp = .ok (uAt F (asgOf inp)) ∧
      gr.eval (asgOf inp) = true := by
  obtain ⟨l, h1, h2, _, h3⟩ := C20_random_satisfying_input_partial hm gr n hgr hgN rs
    (fun i => (hrs i).2) (fun i => (hrs i).1)
  exact ⟨l, h1, C16_eval D l (by omega) (h2 ▸ hDN), C16_eval F l (by omega) (h2 ▸ hFN), h3⟩

theorem sampleLoop_ok (hm : m.Mono) (D F : List (BDD m)) (hD : D.length ≤ 62) (hFl : F.length ≤ 62)
    (gr : BDD m) (n : Nat) (hDN : Fits n D) (hFN : Fits n F) (hgN : Fits n [gr])
    (hgr : ∃ x, gr.eval x = true) (rs : Nat → Nat → Nat)
    (hrs : ∀ i k, rs i k ≠ 0 ∧ rs i k ≤ randMax) :
    ∀ (k i : Nat) (cd : Nat × Nat), ∃ cd', sampleLoop D F gr n rs k i cd = .ok cd'
  | 0, i, cd => ⟨cd, rfl⟩
  | k + 1, i, cd => by
      obtain ⟨inp, h1, h2, h3, _⟩ := sample_ok hm D F hD hFl gr n hDN hFN hgN hgr (rs i) (hrs i)
      simp only [sampleLoop, h1, h2, h3, bind, Except.bind]
      exact sampleLoop_ok hm D F hD hFl gr n hDN hFN hgN hgr rs hrs k (i + 1) _

/-- One or more samples make progress. -/
theorem sampleLoop_progress (hm : m.Mono) (D F : List (BDD m)) (hF : ∀ x, 0 < uAt F x)
    (hD : D.length ≤ 62) (hFl : F.length ≤ 62)
    (gr : BDD m) (n : Nat) (hDN : Fits n D) (hFN : Fits n F) (hgN : Fits n [gr])
    (hgr : ∃ x, gr.eval x = true) (rs : Nat → Nat → Nat)
    (hrs : ∀ i k, rs i k ≠ 0 ∧ rs i k ≤ randMax) (k i : Nat) (cd : Nat × Nat)
    (h1 : cd.1 < 2 ^ 63) (h2 : 0 < cd.2) (h3 : cd.2 < 2 ^ 63)
    (hg : ∀ x, gr.eval x = true → uAt D x * cd.2 > uAt F x * cd.1) :
    ∃ cd', sampleLoop D F gr n rs (k + 1) i cd = .ok cd' ∧ Reached D F cd cd' ∧ cd' ≠ cd := by
  obtain ⟨cd', hok⟩ := sampleLoop_ok hm D F hD hFl gr n hDN hFN hgN hgr rs hrs (k + 1) i cd
  refine ⟨cd', hok, sampleLoop_spec D F hF hD hFl gr n rs (k + 1) i cd cd' h1 h2 h3 hok, ?_⟩
  obtain ⟨inp, i1, i2, i3, i4⟩ := sample_ok hm D F hD hFl gr n hDN hFN hgN hgr (rs i) (hrs i)
  simp only [sampleLoop, i1, i2, i3, bind, Except.bind] at hok
  have hgt := hg _ i4
  set x := asgOf inp
  have b1 : uAt D x < 2 ^ 62 := uAt_lt' hD x
  have b2 : uAt F x < 2 ^ 62 := uAt_lt' hFl x
  have u1 : u256 (uAt D x * cd.2) = uAt D x * cd.2 := by
    unfold u256
    apply Nat.mod_eq_of_lt
    calc uAt D x * cd.2 ≤ 2 ^ 62 * 2 ^ 63 := Nat.mul_le_mul (by omega) h3.le
      _ < 2 ^ 256 := by norm_num
  have u2 : u256 (cd.1 * uAt F x) = cd.1 * uAt F x := by
    unfold u256
    apply Nat.mod_eq_of_lt
    calc cd.1 * uAt F x ≤ 2 ^ 63 * 2 ^ 62 := Nat.mul_le_mul h1.le (by omega)
      _ < 2 ^ 256 := by norm_num
  rw [u1, u2, if_pos (by rw [Nat.mul_comm cd.1]; exact hgt)] at hok
  have hr := sampleLoop_spec D F hF hD hFl gr n rs k (i + 1) _ cd' (by simp only; omega) (hF x)
    (by simp only; omega) hok
  rintro rfl
  rcases hr with he | ⟨_, p2, _⟩
  · rw [he] at hgt
    simp only at hgt
    rw [Nat.mul_comm] at hgt
    omega
  · simp only at p2
    rw [Nat.mul_comm (uAt F x)] at hgt
    omega

/-- The inputs with a quotient above `c/e`, among the first `n` variables. -/
def above (D F : List (BDD m)) (n c e : Nat) : Finset (Fin n → Bool) :=
  Finset.univ.filter (fun a => uAt D (ext a) * e > uAt F (ext a) * c)

theorem randomizedLoop_terminates (hm : m.Mono) (D F : List (BDD m)) (hF : ∀ x, 0 < uAt F x)
    (hD : D.length ≤ 62) (hFl : F.length ≤ 62) (lg : BDD m) (c0 e0 : Nat) (he0 : 0 < e0)
    (hlg : ∀ x, lg.eval x = true ↔ uAt D x * e0 > uAt F x * c0) (n samples : Nat)
    (hDN : Fits n D) (hFN : Fits n F) (rs : Nat → Nat → Nat → Nat)
    (hrs : ∀ j i k, rs j i k ≠ 0 ∧ rs j i k ≤ randMax) : ∀ (fuel j : Nat) (cd : Nat × Nat),
    LoopInv D F c0 e0 cd.1 cd.2 → (above D F n cd.1 cd.2).card < fuel →
    ∃ res, randomizedLoop D F lg n (samples + 1) rs fuel j cd = .ok res
  | 0, j, cd, _, h => by simp at h
  | fuel + 1, j, cd, hinv, hcard => by
      have hr := hinv.reduce
      obtain ⟨r1, r2, h1, h2, hg⟩ := greater_spec D F lg c0 e0 _ _ he0 hlg hr
      simp only [randomizedLoop, h1, h2, bind, Except.bind]
      split
      · exact ⟨_, rfl⟩
      · rename_i hz
        rw [Bool.not_eq_true, BDD.isZero_false_iff] at hz
        have hgN : Fits n [greaterThan r1 r2] := by
          apply fits_of_eval'
          intro x y hxy
          apply Bool.eq_iff_iff.mpr
          rw [hg, hg, uAt_agree hDN hxy, uAt_agree hFN hxy]
        set c := cd.1 / cd.1.gcd cd.2 with hc
        set e := cd.2 / cd.1.gcd cd.2 with he
        obtain ⟨cd', hok, hrch, hne⟩ := sampleLoop_progress hm D F hF hD hFl (greaterThan r1 r2) n hDN
          hFN hgN hz (rs j) (hrs j) samples 0 (c, e) hr.c_lt hr.e_pos hr.e_lt
          (fun x hx => (hg x).mp hx)
        rw [hok]
        simp only
        refine randomizedLoop_terminates hm D F hF hD hFl lg c0 e0 he0 hlg n samples hDN hFN rs hrs
          fuel (j + 1) cd' (LoopInv.reached (cd := (c, e)) hr hF hD hFl hrch) ?_
        refine lt_of_lt_of_le (Finset.card_lt_card ?_) (Nat.lt_succ_iff.mp hcard)
        rcases hrch with h | ⟨p1, p2, y, hy⟩
        · exact absurd h hne
        simp only at p2
        have hsub : ∀ x, uAt D x * cd'.2 > uAt F x * cd'.1 → uAt D x * cd.2 > uAt F x * cd.1 := by
          intro x hx
          rw [← gcd_reduce hinv.c_pos, ← hc, ← he]
          have hcp : 0 < cd'.2 := by rw [hy]; exact hF y
          have q : (uAt F x * c) * cd'.2 < (uAt D x * e) * cd'.2 := by
            calc (uAt F x * c) * cd'.2 = uAt F x * (c * cd'.2) := by ring
              _ ≤ uAt F x * (cd'.1 * e) := Nat.mul_le_mul_left _ p2.le
              _ = (uAt F x * cd'.1) * e := by ring
              _ < (uAt D x * cd'.2) * e := Nat.mul_lt_mul_of_pos_right hx hr.e_pos
              _ = _ := by ring
          exact lt_of_mul_lt_mul_right q (Nat.zero_le _)
        have y1 : uAt D (ext (fun i : Fin n => y i)) = uAt D y :=
          uAt_agree hDN (fun v hv => ext_agree y hv)
        have y2 : uAt F (ext (fun i : Fin n => y i)) = uAt F y :=
          uAt_agree hFN (fun v hv => ext_agree y hv)
        rw [Finset.ssubset_iff_of_subset]
        · refine ⟨fun i => y i, ?_, ?_⟩
          · simp only [above, Finset.mem_filter, Finset.mem_univ, true_and]
            rw [y1, y2, ← gcd_reduce hinv.c_pos, ← hc, ← he]
            rw [hy] at p2
            simp only at p2
            rw [Nat.mul_comm (uAt F y)]
            exact p2
          · simp only [above, Finset.mem_filter, Finset.mem_univ, true_and]
            rw [y1, y2, hy]
            simp only
            rw [Nat.mul_comm]
            omega
        · intro a ha
          simp only [above, Finset.mem_filter, Finset.mem_univ, true_and] at ha ⊢
          exact hsub _ ha

theorem randomizedSearch_terminates (hm : m.Mono) (D F : List (BDD m)) (hF : ∀ x, 0 < uAt F x)
    (hD : D.length ≤ 62) (hFl : F.length ≤ 62) (n samples : Nat)
    (hDN : Fits n D) (hFN : Fits n F) (rs : Nat → Nat → Nat → Nat)
    (hrs : ∀ j i k, rs j i k ≠ 0 ∧ rs j i k ≤ randMax) (fuel : Nat) (hfuel : 2 ^ n + 62 ≤ fuel) :
    ∃ res, randomizedSearch D F n (samples + 1) rs fuel = .ok res := by
  rcases randomizedSearch_cases D F hF hD hFl n (samples + 1) rs fuel with
    ⟨c, e, h1, _⟩ | ⟨_, h⟩ | ⟨c, e, lg, h1, h2, h3, _, h4⟩
  · exact ⟨_, h1⟩
  · have := Nat.two_pow_pos n
    omega
  · rw [h4]
    apply randomizedLoop_terminates hm D F hF hD hFl lg c e h1 h2 n samples hDN hFN rs hrs fuel 0 _ h3
    have : (above D F n c e).card ≤ 2 ^ n := by
      refine le_trans (Finset.card_le_univ _) ?_
      simp
    simp only
    omega

theorem randomizedSearch_no_samples (D F : List (BDD m)) (hF : ∀ x, 0 < uAt F x)
    (hD : D.length ≤ 62) (hFl : F.length ≤ 62) (n : Nat) (rs : Nat → Nat → Nat → Nat) (fuel : Nat) :
    randomizedSearch D F n 0 rs fuel = .error .fuel ∨
    ∃ c e, randomizedSearch D F n 0 rs fuel = .ok (c, e) ∧
      ((c = 0 ∧ e = 1) ∨ ∃ k, (c = 2 ^ k ∧ e = 1) ∨ (c = 1 ∧ e = 2 ^ k)) := by
  rcases randomizedSearch_cases D F hF hD hFl n 0 rs fuel with
    ⟨c, e, h1, _, _, h2⟩ | ⟨h, _⟩ | ⟨c, e, lg, h1, h2, h3, h5, h4⟩
  · exact .inr ⟨c, e, h1, h2⟩
  · exact .inl h
  · left
    rw [h4]
    exact randomizedLoop_no_samples D F lg c e h1 h2 n rs fuel 0 (c, e) h3 h5

/-! ## `wcre_search` -/

theorem mulLoop_zero (fc : List (BDD m)) (sh : Nat → Int) (l : List Nat) (res : List (BDD m)) :
    mulLoop fc 0 sh l res = .ok res := by
  induction l with
  | nil => rfl
  | cons i l ih => rw [mulLoop, Nat.zero_testBit]; exact ih

/-- An integral factor is exact without extra bits. -/
theorem mulQ_nat (f : List (BDD m)) (c e : Nat) (h0 : 0 < c) (h : c < 2 ^ 256) (he : e < 64) :
    ∃ r, bddMultiplyConstantQ f c e = .ok r ∧ ∀ x, uAt r x = uAt f x * c := by
  obtain ⟨r, hr, hv⟩ := mulC f c h
  refine ⟨r, ?_, hv⟩
  have h1 : (1 : ℚ) ≤ c := by exact_mod_cast h0
  have h2 : (c : ℚ) < 2 ^ 256 := by exact_mod_cast h
  unfold bddMultiplyConstantQ
  rw [if_neg (by linarith), if_neg (by linarith), if_neg (by omega)]
  simp only [bddMultiplyConstant, bddMultiplyConstantLg] at hr
  have hc : ⌈(c : ℚ)⌉.toNat = c := by rw [Int.ceil_natCast]; simp
  have hfl : ⌊(c : ℚ)⌋ = c := Int.floor_natCast c
  simp only [hc, hfl, Int.toNat_natCast, hr, bind, Except.bind, Int.cast_natCast, sub_self, zero_mul,
    Int.floor_zero, Int.toNat_zero, mulLoop_zero]

/-- Multiplication by a multiple of `2^-16` is exact on multiples of `2^16`. -/
theorem mulQ_frac (f : List (BDD m)) (q : ℚ) (h1 : 1 / 2 < q) (h2 : q < 2 ^ 256)
    (hk : ∃ k : ℤ, q * 2 ^ 16 = k) (hd : ∀ x, 2 ^ 16 ∣ uAt f x) :
    ∃ r, bddMultiplyConstantQ f q 16 = .ok r ∧ ∀ x, (uAt r x : ℚ) = uAt f x * q := by
  obtain ⟨r, hr, _, hv⟩ := bddMultiplyConstantQ_spec f q 16 h1 h2 (by norm_num)
  exact ⟨r, hr, fun x => (hv x).2.2 (hd x) hk⟩

/-- What the first loop establishes about the quotients, for `2^k` the current factor. -/
theorem factorLoop_spec (D F : List (BDD m)) (hF : ∀ x, 0 < uAt F x)
    (hb : ∀ x, uAt D x < uAt F x * 2 ^ 127) :
    ∀ (n k : Nat), n + k = 128 → (∀ j, j < k → ∃ x, uAt D x > uAt F x * 2 ^ j) →
    (∃ j : Nat, factorLoop D F n k = .ok (.inl (2 ^ j)) ∧ MaxFrac D F (2 ^ j) 1) ∨
    (k = 0 ∧ factorLoop D F n k = .ok (.inr (0, 1, .one)) ∧ ∀ x, uAt D x < uAt F x) ∨
    ∃ (j : Nat) (lg : BDD m), j + 1 ≤ 127 ∧ factorLoop D F n k = .ok (.inr (2 ^ j, 2 ^ (j + 1), lg)) ∧
      (∀ x, lg.eval x = true ↔ uAt D x > uAt F x * 2 ^ j) ∧ (∃ x, lg.eval x = true) ∧
      ∀ x, uAt D x < uAt F x * 2 ^ (j + 1)
  | 0, k, hn, hlow => by
      obtain ⟨x, hx⟩ := hlow 127 (by omega)
      exact absurd (hb x) (by omega)
  | n + 1, k, hn, hlow => by
      have hk : k ≤ 127 := by omega
      have hp : (2 ^ k : Nat) < 2 ^ 256 := Nat.pow_lt_pow_right (by norm_num) (by omega)
      obtain ⟨r, hr, hv⟩ := mulQ_nat F (2 ^ k) 16 (by positivity) hp (by norm_num)
      have hcast : ((2 ^ k : Nat) : ℚ) = 2 ^ k := by push_cast; rfl
      rw [hcast] at hr
      have hcases := existsGreaterEquals_cases D r
      simp only [hv] at hcases
      unfold factorLoop
      simp only [hr, bind, Except.bind]
      rcases hcases with ⟨⟨x, hx⟩, h⟩ | ⟨hle, ⟨⟨x, hx⟩, h⟩ | ⟨hne, h⟩⟩
      · rw [h]
        simp only [Bool.false_eq_true, if_false, Bool.not_true]
        rcases factorLoop_spec D F hF hb n (k + 1) (by omega) (fun j hj => by
          rcases Nat.lt_succ_iff_lt_or_eq.mp hj with hj | rfl
          · exact hlow j hj
          · exact ⟨x, hx⟩) with h1 | ⟨h1, _⟩ | h1
        · exact .inl h1
        · omega
        · exact .inr (.inr h1)
      · rw [h]
        exact .inl ⟨k, by simp, ⟨⟨x, by omega⟩, fun y => by have := hle y; omega⟩⟩
      · rw [h]
        have hlt : ∀ x, uAt D x < uAt F x * 2 ^ k := fun x =>
          lt_of_le_of_ne (hle x) (fun he => hne ⟨x, he⟩)
        simp only [Bool.false_eq_true, if_false, Bool.not_false, if_true]
        rcases Nat.eq_zero_or_pos k with rfl | hkp
        · exact .inr (.inl ⟨rfl, by simp, fun x => by simpa using hlt x⟩)
        · obtain ⟨j, rfl⟩ : ∃ j, k = j + 1 := ⟨k - 1, by omega⟩
          rw [if_pos (by omega)]
          have hpj : (2 ^ j : Nat) < 2 ^ 256 := Nat.pow_lt_pow_right (by norm_num) (by omega)
          obtain ⟨r', hr', hv'⟩ := mulQ_nat F (2 ^ j) 16 (by positivity) hpj (by norm_num)
          have hhalf : (2 : ℚ) ^ (j + 1) / 2 = ((2 ^ j : Nat) : ℚ) := by push_cast; ring
          have hlg : ∀ x, (greaterThan D r').eval x = true ↔ uAt D x > uAt F x * 2 ^ j := fun x => by
            rw [greaterThan_eval, decide_eq_true_eq, hv']
          obtain ⟨x, hx⟩ := hlow j (by omega)
          refine .inr (.inr ⟨j, greaterThan D r', by omega, ?_, hlg, ⟨x, (hlg x).mpr hx⟩, hlt⟩)
          rw [hhalf, hr']
          simp

/-- Two claims about the value returned for the maximal quotient `w`. -/
def SearchOk (w precision v : ℚ) : Prop :=
  |v - w| ≤ precision / 2 ∨ (w ≤ v ∧ v < 3 / 2 * w)

theorem bisectLoop_spec (D F : List (BDD m)) (hF : ∀ x, 0 < uAt F x) (hd : ∀ x, 2 ^ 16 ∣ uAt F x)
    (precision : ℚ) (hp : 1 / 2 ^ 16 ≤ precision) (w : ℚ)
    (hw : IsMax (fun x => (uAt D x : ℚ) / uAt F x) w) :
    ∀ (fuel t : Nat) (lo hi : ℚ) (lg : BDD m), t < fuel → (hi - lo) * 2 ^ 16 = 2 ^ t →
    (∃ k : ℤ, lo * 2 ^ 16 = k) → 1 ≤ lo → hi ≤ 2 * lo → hi < 2 ^ 256 → lo < w → w < hi →
    (∀ x, lg.eval x = true ↔ (uAt D x : ℚ) > uAt F x * lo) →
    ∃ v, bisectLoop D F precision fuel lo hi lg = .ok v ∧ SearchOk w precision v
  | 0, t, lo, hi, lg, h, _, _, _, _, _, _, _, _ => absurd h (by omega)
  | fuel + 1, t, lo, hi, lg, ht, hgap, ⟨kl, hkl⟩, hlo, hhi, hhi2, hlw, hwh, hlg => by
      unfold bisectLoop
      by_cases hc : hi - lo > precision
      · rw [if_pos hc]
        -- the gap is at least `2^-15`
        obtain ⟨s, rfl⟩ : ∃ s, t = s + 1 := by
          rcases Nat.eq_zero_or_pos t with rfl | h
          · rw [pow_zero] at hgap
            have : hi - lo = 1 / 2 ^ 16 := by field_simp; linarith
            rw [this] at hc
            exact absurd hp (by linarith)
          · exact ⟨t - 1, by omega⟩
        set mid := (lo + hi) / 2 with hmid
        have hmk : mid * 2 ^ 16 = ((kl + 2 ^ s : ℤ) : ℚ) := by
          push_cast
          rw [← hkl, hmid]
          have : hi = lo + 2 ^ (s + 1) / 2 ^ 16 := by field_simp; linarith
          rw [this, pow_succ]
          field_simp
          ring
        have hlm : lo < mid := by rw [hmid]; linarith
        have hmh : mid < hi := by rw [hmid]; linarith
        have hdm : ∀ x, 2 ^ 16 ∣ uAt (F.map (·.and lg)) x := fun x => by
          rw [uAt_masked]
          split
          · exact hd x
          · exact Nat.dvd_zero _
        obtain ⟨r, hr, hv⟩ := mulQ_frac (F.map (·.and lg)) mid (by linarith) (by linarith) ⟨_, hmk⟩ hdm
        have hcases := existsGreaterEquals_cases (D.map (·.and lg)) r
        have hD : ∀ x, uAt (D.map (·.and lg)) x = if lg.eval x then uAt D x else 0 := uAt_masked D lg
        -- comparison of the masked values with the quotient
        have hgt : ∀ x, uAt (D.map (·.and lg)) x > uAt r x ↔ (uAt D x : ℚ) > uAt F x * mid := fun x => by
          rw [gt_iff_lt, ← Nat.cast_lt (α := ℚ), hv, hD, uAt_masked]
          split
          · rfl
          · rename_i hx
            rw [hlg] at hx
            constructor
            · intro h; simp at h
            · intro h
              exfalso
              apply hx
              have : (0 : ℚ) < uAt F x := by exact_mod_cast hF x
              nlinarith
        have hwle : (∀ x, uAt (D.map (·.and lg)) x ≤ uAt r x) → w ≤ mid := by
          intro hle
          obtain ⟨⟨x, hx⟩, _⟩ := hw
          rw [← hx]
          have hFx : (0 : ℚ) < uAt F x := by exact_mod_cast hF x
          rw [div_le_iff₀ hFx]
          by_contra hcon
          have := (hgt x).mpr (by linarith)
          exact absurd (hle x) (by omega)
        simp only [hr, bind, Except.bind]
        rcases hcases with ⟨⟨x, hx⟩, h⟩ | ⟨hle, ⟨⟨x, hx⟩, h⟩ | ⟨hne, h⟩⟩
        · rw [h]
          simp only [Bool.false_eq_true, if_false, if_true]
          have hmw : mid < w := by
            have h1 := (hgt x).mp hx
            have hFx : (0 : ℚ) < uAt F x := by exact_mod_cast hF x
            have h2 := hw.2 x
            simp only at h2
            rw [div_le_iff₀ hFx] at h2
            by_contra hcon
            nlinarith
          refine bisectLoop_spec D F hF hd precision hp w hw fuel s mid hi _ (by omega) ?_ ⟨_, hmk⟩
            (by linarith) (by linarith) hhi2 hmw hwh (fun x => ?_)
          · rw [hmid]
            rw [pow_succ 2 s] at hgap
            linarith
          · rw [greaterThan_eval, decide_eq_true_eq, hgt]
        · rw [h]
          refine ⟨mid, by simp, .inr ⟨hwle hle, ?_⟩⟩
          rw [hmid]; linarith
        · rw [h]
          simp only [Bool.false_eq_true, if_false]
          have hwm : w < mid := by
            refine lt_of_le_of_ne (hwle hle) (fun heq => ?_)
            obtain ⟨⟨x, hx⟩, _⟩ := hw
            apply hne
            refine ⟨x, ?_⟩
            have hFx : (0 : ℚ) < uAt F x := by exact_mod_cast hF x
            have h1 : (uAt D x : ℚ) = uAt F x * w := by
              have : (uAt D x : ℚ) / uAt F x = w := hx
              rw [div_eq_iff hFx.ne'] at this
              rw [this]; ring
            have hlx : lg.eval x = true := (hlg x).mpr (by rw [h1]; nlinarith)
            rw [← Nat.cast_inj (R := ℚ), hv, hD, uAt_masked, if_pos hlx, if_pos hlx, h1, heq]
          refine bisectLoop_spec D F hF hd precision hp w hw fuel s lo mid lg (by omega) ?_ ⟨_, hkl⟩
            hlo (by linarith) (by linarith) hlw hwm hlg
          rw [hmid]
          rw [pow_succ 2 s] at hgap
          linarith
      · rw [if_neg hc]
        refine ⟨_, rfl, .inl ?_⟩
        rw [abs_le]
        constructor <;> linarith

theorem uAt_shifted (k : Nat) (f : List (BDD m)) (x : Asg) :
    uAt (List.replicate k BDD.zero ++ f) x = uAt f x * 2 ^ k := by
  rw [uAt_append]; simp [Nat.mul_comm]

theorem ratio_shifted (k : Nat) (D F : List (BDD m)) (x : Asg) :
    (uAt (List.replicate k BDD.zero ++ D) x : ℚ) / uAt (List.replicate k BDD.zero ++ F) x =
      uAt D x / uAt F x := by
  rw [uAt_shifted, uAt_shifted]
  push_cast
  rw [mul_div_mul_right _ _ (by positivity)]

theorem relativeSearch_spec (D F : List (BDD m)) (hF : ∀ x, 0 < uAt F x) (hD : D.length ≤ 127)
    (k : Nat) (hk : 16 ≤ k) (precision : ℚ) (hp : 1 / 2 ^ 16 ≤ precision) (w : ℚ)
    (hw : IsMax (fun x => (uAt D x : ℚ) / uAt F x) w) (hw1 : w = 0 ∨ 1 ≤ w) (fuel : Nat)
    (hfuel : 143 ≤ fuel) :
    ∃ v, relativeSearch D F k precision fuel = .ok v ∧ SearchOk w precision v := by
  have hp0 : 0 < precision := lt_of_lt_of_le (by positivity) hp
  unfold relativeSearch
  by_cases hz : D.all (·.isZero) = true
  · rw [if_pos hz]
    rw [all_isZero_iff] at hz
    obtain ⟨⟨x, hx⟩, _⟩ := hw
    simp [hz] at hx
    exact ⟨0, rfl, .inl (by rw [← hx]; simp; linarith)⟩
  · rw [if_neg hz]
    have hF' : ∀ x, 0 < uAt (List.replicate k BDD.zero ++ F) x := fun x => by
      rw [uAt_shifted]; exact Nat.mul_pos (hF x) (by positivity)
    have hw' : IsMax (fun x => (uAt (List.replicate k BDD.zero ++ D) x : ℚ) /
        uAt (List.replicate k BDD.zero ++ F) x) w := by simpa only [ratio_shifted] using hw
    have hw0 : w ≠ 0 := by
      rintro rfl
      rw [all_isZero_iff] at hz
      apply hz
      intro x
      have h1 := hw.2 x
      simp only at h1
      have hFx : (0 : ℚ) < uAt F x := by exact_mod_cast hF x
      rw [div_le_iff₀ hFx, zero_mul] at h1
      have : uAt D x ≤ 0 := by exact_mod_cast h1
      omega
    have hw2 : 1 ≤ w := hw1.resolve_left hw0
    have hb : ∀ x, uAt (List.replicate k BDD.zero ++ D) x <
        uAt (List.replicate k BDD.zero ++ F) x * 2 ^ 127 := fun x => by
      rw [uAt_shifted, uAt_shifted]
      calc uAt D x * 2 ^ k < 2 ^ 127 * 2 ^ k := Nat.mul_lt_mul_of_pos_right (uAt_lt' hD x) (by positivity)
        _ ≤ (uAt F x * 2 ^ k) * 2 ^ 127 := by
          rw [Nat.mul_comm]
          exact Nat.mul_le_mul_right _ (Nat.le_mul_of_pos_left _ (hF x))
    set D' := List.replicate k BDD.zero ++ D
    set F' := List.replicate k BDD.zero ++ F
    rcases factorLoop_spec D' F' hF' hb 128 0 rfl (fun j hj => by omega) with
      ⟨j, h, hmax⟩ | ⟨_, h, hlt⟩ | ⟨j, lg, hj, h, hlg, ⟨x, hx⟩, hlt⟩
    · have := IsMax.unique hw' (hmax.isMax hF' (by norm_num))
      refine ⟨2 ^ j, by simp [h, bind, Except.bind], .inl ?_⟩
      rw [this]
      push_cast
      simp
      linarith
    · exfalso
      obtain ⟨⟨x, hx⟩, _⟩ := hw'
      have hFx : (0 : ℚ) < uAt F' x := by exact_mod_cast hF' x
      have h1 : (uAt D' x : ℚ) / uAt F' x < 1 := by
        rw [div_lt_one hFx]; exact_mod_cast hlt x
      simp only at hx
      linarith
    · simp only [h, bind, Except.bind]
      have hd : ∀ x, 2 ^ 16 ∣ uAt F' x := fun x => by
        rw [show F' = List.replicate k BDD.zero ++ F from rfl, uAt_shifted]
        exact Dvd.dvd.mul_left (pow_dvd_pow 2 hk) _
      refine bisectLoop_spec D' F' hF' hd precision hp w hw' fuel (j + 16) (2 ^ j) (2 ^ (j + 1)) lg
        (by omega) (by rw [pow_succ, pow_add]; ring) ⟨2 ^ j * 2 ^ 16, by push_cast; ring⟩
        (one_le_pow₀ (by norm_num)) (by rw [pow_succ]; linarith)
        (pow_lt_pow_right₀ (by norm_num) (by omega)) ?_ ?_ (fun y => ?_)
      · have h1 := (hlg x).mp hx
        have h2 := hw'.2 x
        have hFx : (0 : ℚ) < uAt F' x := by exact_mod_cast hF' x
        simp only at h2
        rw [div_le_iff₀ hFx] at h2
        have h3 : (uAt F' x : ℚ) * 2 ^ j < uAt D' x := by exact_mod_cast h1
        by_contra hc
        have : w * uAt F' x ≤ 2 ^ j * uAt F' x := mul_le_mul_of_nonneg_right (by linarith) hFx.le
        linarith
      · obtain ⟨⟨y, hy⟩, _⟩ := hw'
        have hFx : (0 : ℚ) < uAt F' y := by exact_mod_cast hF' y
        rw [← hy]
        simp only
        rw [div_lt_iff₀ hFx]
        have := hlt y
        have h3 : (uAt D' y : ℚ) < uAt F' y * 2 ^ (j + 1) := by exact_mod_cast this
        linarith
      · rw [hlg]
        have h3 : ((uAt F' y * 2 ^ j : Nat) : ℚ) = uAt F' y * 2 ^ j := by push_cast; rfl
        rw [gt_iff_lt, gt_iff_lt, ← h3, Nat.cast_lt]

/-- A maximal quotient strictly between 0 and 1 runs into the undefined conversion. -/
theorem relativeSearch_ub (D F : List (BDD m)) (hF : ∀ x, 0 < uAt F x) (hD : ∃ x, uAt D x ≠ 0)
    (hlt : ∀ x, uAt D x < uAt F x) (k : Nat) (precision : ℚ) (hp : precision < 1) (fuel : Nat) :
    relativeSearch D F k precision (fuel + 1) = .error .ub := by
  unfold relativeSearch
  rw [if_neg (by rw [all_isZero_iff]; push Not; exact hD)]
  have hF' : ∀ x, 0 < uAt (List.replicate k BDD.zero ++ F) x := fun x => by
    rw [uAt_shifted]; exact Nat.mul_pos (hF x) (by positivity)
  have hlt' : ∀ x, uAt (List.replicate k BDD.zero ++ D) x < uAt (List.replicate k BDD.zero ++ F) x :=
    fun x => by
      rw [uAt_shifted, uAt_shifted]; exact Nat.mul_lt_mul_of_pos_right (hlt x) (by positivity)
  set D' := List.replicate k BDD.zero ++ D
  set F' := List.replicate k BDD.zero ++ F
  obtain ⟨r, hr, hv⟩ := mulQ_nat F' 1 16 (by norm_num) (by norm_num) (by norm_num)
  have hfac : factorLoop D' F' 128 0 = .ok (.inr (0, 1, .one)) := by
    unfold factorLoop
    rw [pow_zero, ← Nat.cast_one, hr]
    rcases existsGreaterEquals_cases D' r with ⟨⟨x, hx⟩, h⟩ | ⟨hle, ⟨⟨x, hx⟩, h⟩ | ⟨hne, h⟩⟩
    · rw [hv] at hx; have := hlt' x; omega
    · rw [hv] at hx; have := hlt' x; omega
    · simp [h, bind, Except.bind]
  simp only [hfac, bind, Except.bind]
  unfold bisectLoop
  rw [if_pos (by linarith)]
  simp only [bddMultiplyConstantQ, bind, Except.bind]
  norm_num

/-! ## Small facts used by the statements -/

theorem noWrap_baseTwo (f g : List (BDD m)) : NoWrap .baseTwo f g := by intro h; cases h
theorem signOk_baseTwo (g : List (BDD m)) : SignOk .baseTwo g := by intro h; cases h

/-- The two numbers of the signed counterexamples: 1 and -2, whose difference 3 wraps to 1. -/
theorem signed_witness : IsMax (relErrAt .twosComplement [(BDD.one : BDD .id), .zero] [.zero, .one]) 3 := by
  have : ∀ x, relErrAt .twosComplement [(BDD.one : BDD .id), .zero] [.zero, .one] x = 3 := by
    intro x
    norm_num [relErrAt, valAt, sAt, tcval, uval, bitsAt]
  exact ⟨⟨fun _ => false, this _⟩, fun x => (this x).le⟩

theorem acreSym_bounds (N e : Nat) (q : Asg → ℚ) :
    mean N (fun x => (⌊q x * 2 ^ e⌋ : ℚ)) / 2 ^ e ≤ mean N q ∧
    mean N q < mean N (fun x => (⌊q x * 2 ^ e⌋ : ℚ)) / 2 ^ e + 1 / 2 ^ e := by
  have hp : (0 : ℚ) < 2 ^ e := by positivity
  constructor
  · rw [div_le_iff₀ hp, ← mean_mul_right]
    exact mean_mono N (fun x => Int.floor_le _)
  · rw [← add_div, lt_div_iff₀ hp, ← mean_mul_right]
    have : mean N (fun x => (⌊q x * 2 ^ e⌋ : ℚ)) + 1 = mean N (fun x => (⌊q x * 2 ^ e⌋ : ℚ) + 1) := by
      rw [mean_add, mean_const]
    rw [this]
    exact mean_lt N (fun x => (Int.lt_floor_add_one _).le) (fun _ => false) (Int.lt_floor_add_one _)

end Verif

import Verif.Model.Relative
import Verif.Proofs.Max
import Verif.Proofs.Average
import Verif.Props.Arith

/-!
# Lemmas about relative errors: symbolic division and bounds
-/

namespace Verif

variable {m : Mgr}

/-- The operands of the relative error functions. -/
structure Prepared (r : NumRep) (f g D A F : List (BDD m)) : Prop where
  diff : bddAbsoluteDifference r f g = .ok D
  abs : bddAbs r f = .ok A
  maxOne : bddMaxOne A = .ok F
  lenD : D.length ≤ max f.length g.length + 1
  lenA : A.length = f.length
  lenF : F.length = f.length
  valD : ∀ x, (uAt D x : Int) = |valAt r f x - valAt r g x|
  valA : ∀ x, (uAt A x : Int) = |valAt r f x|
  valF : ∀ x, uAt F x = max 1 (uAt A x)

theorem prepare (r : NumRep) (f g : List (BDD m)) (hf : f ≠ []) (hg : SignOk r g)
    (hw : NoWrap r f g) : ∃ D A F, Prepared r f g D A F := by
  have hne : ∀ A : List (BDD m), A.length = f.length → A ≠ [] := by
    rintro A hA rfl
    exact hf (List.length_eq_zero_iff.mp hA.symm)
  cases r with
  | baseTwo =>
    obtain ⟨D, hD, hDl, hDv⟩ := C03_absolute_difference_unsigned f g
    obtain ⟨F, hF, hFl, hFv⟩ := bddMaxOne_spec f hf
    exact ⟨D, f, F, hD, rfl, hF, by omega, rfl, hFl, hDv, fun x => by simp [valAt], hFv⟩
  | twosComplement =>
    obtain ⟨D, hD, hDl, hDv⟩ := C04_absolute_difference_signed_wraps f g hf (hg rfl)
    obtain ⟨A, hA, hAl, hAv⟩ := bddAbs_spec f hf
    obtain ⟨F, hF, hFl, hFv⟩ := bddMaxOne_spec A (hne A hAl)
    refine ⟨D, A, F, hD, hA, hF, by omega, hAl, by omega, fun x => ?_, hAv, hFv⟩
    rw [hDv x]
    have := hw rfl x
    simp only [valAt]
    omega

variable {r : NumRep} {f g D A F : List (BDD m)}

theorem Prepared.pos (h : Prepared r f g D A F) (x : Asg) : 0 < uAt F x := by
  rw [h.valF]; omega

theorem Prepared.ratio (h : Prepared r f g D A F) (x : Asg) :
    (uAt D x : ℚ) / uAt F x = relErrAt r f g x := by
  have h1 : (uAt D x : ℚ) = ((uAt D x : Int) : ℚ) := by simp
  have h2 : (uAt F x : ℚ) = max 1 ((uAt A x : Int) : ℚ) := by
    rw [h.valF]; push_cast; rfl
  rw [h1, h2, h.valD, h.valA, relErrAt]

theorem Prepared.relErr_ratio (h : Prepared r f g D A F) (x : Asg) :
    relErrAt r f g x * uAt F x = uAt D x := by
  rw [← h.ratio x, div_mul_cancel₀]
  exact_mod_cast (h.pos x).ne'

theorem Prepared.fitsD (h : Prepared r f g D A F) {N : Nat} (hf : Fits N f) (hg : Fits N g) :
    Fits N D := by
  cases r
  · exact fits_derived hf hg (fun a b => |(uval a : Int) - uval b|) h.valD
  · exact fits_derived hf hg (fun a b => |tcval a - tcval b|) h.valD

theorem Prepared.fitsA (h : Prepared r f g D A F) {N : Nat} (hf : Fits N f) : Fits N A := by
  cases r
  · exact fits_derived hf hf (fun a _ => |(uval a : Int)|) h.valA
  · exact fits_derived hf hf (fun a _ => |tcval a|) h.valA

/-! ## Symbolic division -/

theorem divided_floor {D F Q : List (BDD m)} {e : Nat} {x : Asg} (hF : 0 < uAt F x)
    (hQ : 0 < uAt F x → uAt Q x = uAt D x * 2 ^ e / uAt F x) :
    (uAt Q x : Int) = ⌊(uAt D x : ℚ) / uAt F x * 2 ^ e⌋ := by
  rw [hQ hF, div_mul_eq_mul_div]
  have h1 : (uAt D x : ℚ) * 2 ^ e = ((uAt D x * 2 ^ e : Nat) : ℚ) := by push_cast; rfl
  rw [h1, Rat.floor_natCast_div_natCast]
  exact Int.natCast_ediv _ _

theorem wcreSymbolicDivision_spec (h : Prepared r f g D A F) (e : Nat) (he : D.length + e ≤ 256)
    (w : ℚ) (hw : IsMax (relErrAt r f g) w) :
    wcreSymbolicDivision r f g e = .ok (⌊w * 2 ^ e⌋ / 2 ^ e) := by
  obtain ⟨Q, hQ, hQl, hQv⟩ := C12_divide D F e
  have hfl : ∀ x, (uAt Q x : Int) = ⌊relErrAt r f g x * 2 ^ e⌋ := fun x => by
    rw [divided_floor (h.pos x) (hQv x).1, h.ratio x]
  obtain ⟨M, hM, hmax⟩ := getMaxValue_mod Q
  have hMw : (M : Int) = ⌊w * 2 ^ e⌋ := by
    obtain ⟨⟨y, hy⟩, hle⟩ := hw
    obtain ⟨⟨z, hz⟩, hle'⟩ := hM
    apply le_antisymm
    · rw [← hz, hfl]
      exact Int.floor_mono (mul_le_mul_of_nonneg_right (hle z) (by positivity))
    · rw [← hy, ← hfl]
      exact_mod_cast hle' y
  have hlt : M < 2 ^ 256 := by
    obtain ⟨⟨z, hz⟩, _⟩ := hM
    rw [← hz, (hQv z).1 (h.pos z)]
    calc uAt D z * 2 ^ e / uAt F z ≤ uAt D z * 2 ^ e := Nat.div_le_self _ _
      _ < 2 ^ D.length * 2 ^ e := Nat.mul_lt_mul_of_pos_right (uAt_lt D z) (by positivity)
      _ ≤ 2 ^ 256 := by rw [← pow_add]; exact Nat.pow_le_pow_right (by norm_num) he
  rw [Nat.mod_eq_of_lt hlt] at hmax
  simp only [wcreSymbolicDivision, h.diff, h.abs, h.maxOne, hQ, bind, Except.bind, pow2,
    if_neg (show ¬ e ≥ 1024 by omega), fdiv, if_neg (show ¬ (2 : ℚ) ^ e = 0 by positivity), hmax]
  rw [← hMw]
  simp

theorem fits_divided {D F Q : List (BDD m)} {N e : Nat} (hD : Fits N D) (hF : Fits N F)
    (hQv : ∀ x, uAt Q x = uAt D x * 2 ^ e / uAt F x) : Fits N Q := by
  apply fits_of_uAt
  intro x y hxy
  rw [hQv, hQv, uAt, uAt, uAt, uAt, bitsAt_agree hD hxy, bitsAt_agree hF hxy]

theorem Prepared.fitsF (h : Prepared r f g D A F) {N : Nat} (hf : Fits N f) : Fits N F := by
  apply fits_of_uAt
  intro x y hxy
  rw [h.valF, h.valF, uAt, uAt, bitsAt_agree (h.fitsA hf) hxy]

theorem acreSymbolicDivision_spec (h : Prepared r f g D A F) (e N : Nat) (hf : Fits N f)
    (hg : Fits N g) (he : D.length + 2 + e + N ≤ 256) :
    acreSymbolicDivision r f g e =
      .ok (mean N (fun x => (⌊relErrAt r f g x * 2 ^ e⌋ : ℚ)) / 2 ^ e) := by
  obtain ⟨Q, hQ, hQl, hQv⟩ := C12_divide D F e
  have hfl : ∀ x, (uAt Q x : Int) = ⌊relErrAt r f g x * 2 ^ e⌋ := fun x => by
    rw [divided_floor (h.pos x) (hQv x).1, h.ratio x]
  have hfit : Fits N Q := fits_divided (h.fitsD hf hg) (h.fitsF hf) (fun x => (hQv x).1 (h.pos x))
  have havg := averageValue_spec Q N N hfit (fun b hb => supportSize_le_of_fits (hfit b hb)) (by omega)
  simp only [acreSymbolicDivision, h.diff, h.abs, h.maxOne, hQ, bind, Except.bind, pow2, havg,
    if_neg (show ¬ e ≥ 1024 by omega), fdiv, if_neg (show ¬ (2 : ℚ) ^ e = 0 by positivity)]
  apply congrArg Except.ok
  congr 1
  apply mean_congr
  intro x
  rw [← hfl]
  simp

/-! ## Bounds -/

/-- `v` is the maximum of `init` and the values of `g` on `P`. -/
def MaxOver (P : Asg → Prop) (g : Asg → ℚ) (init v : ℚ) : Prop :=
  (v = init ∨ ∃ x, P x ∧ v = g x) ∧ init ≤ v ∧ ∀ x, P x → g x ≤ v

theorem uAt_masked (f : List (BDD m)) (b : BDD m) (x : Asg) :
    uAt (f.map (·.and b)) x = if b.eval x then uAt f x else 0 := by
  induction f with
  | nil => simp
  | cons c f ih =>
    rw [List.map_cons, uAt_cons, ih, uAt_cons, BDD.eval_and]
    cases b.eval x <;> simp

theorem log_top (b : BDD m) (bs : List (BDD m)) (x : Asg) (hb : b.eval x = true) :
    Nat.log 2 (uAt (b :: bs).reverse x) = bs.length ∧ 0 < uAt (b :: bs).reverse x := by
  rw [uAt_reverse_cons, hb]
  have := uAt_lt bs.reverse x
  rw [List.length_reverse] at this
  simp only [Bool.toNat_true, Nat.mul_one]
  have hp : 0 < 2 ^ bs.length := by positivity
  refine ⟨?_, by omega⟩
  rw [Nat.log_eq_iff (.inr ⟨by norm_num, by omega⟩)]
  constructor
  · omega
  · rw [pow_succ]; omega

theorem uAt_top_false (b : BDD m) (bs : List (BDD m)) (x : Asg) (hb : b.eval x = false) :
    uAt (b :: bs).reverse x = uAt bs.reverse x := by
  rw [uAt_reverse_cons, hb]; simp

/-- One step of the bounds loop for one of the two bounds: `c` is the divisor at the index. -/
theorem maxOver_step (f : List (BDD m)) (b z : BDD m) (bs : List (BDD m)) (c : Nat → ℚ)
    (hc : ∀ n, 0 < c n) (init v : ℚ) (h0 : 0 ≤ init) (M : Nat)
    (hM : IsMax (uAt (f.map (·.and (z.and b)))) M)
    (h : MaxOver (fun x => (z.and b.not).eval x = true ∧ 0 < uAt bs.reverse x)
      (fun x => uAt f x / c (Nat.log 2 (uAt bs.reverse x))) (max init (M / c bs.length)) v) :
    MaxOver (fun x => z.eval x = true ∧ 0 < uAt (b :: bs).reverse x)
      (fun x => uAt f x / c (Nat.log 2 (uAt (b :: bs).reverse x))) init v := by
  obtain ⟨hatt, hinit, hle⟩ := h
  have hi1 : init ≤ v := le_trans (le_max_left _ _) hinit
  have hi2 : M / c bs.length ≤ v := le_trans (le_max_right _ _) hinit
  refine ⟨?_, hi1, ?_⟩
  · rcases hatt with hv | ⟨x, ⟨hz, hpos⟩, hv⟩
    · rcases max_choice init (M / c bs.length) with hm | hm
      · exact .inl (hv.trans hm)
      · rw [hm] at hv
        obtain ⟨⟨x, hx⟩, _⟩ := hM
        rw [uAt_masked] at hx
        split at hx
        · rename_i hzb
          rw [BDD.eval_and, Bool.and_eq_true] at hzb
          obtain ⟨hl, hp⟩ := log_top b bs x hzb.2
          exact .inr ⟨x, ⟨hzb.1, hp⟩, by beta_reduce; rw [hl, hv, hx]⟩
        · left
          rw [← hx] at hv
          simp at hv
          exact le_antisymm (hv ▸ h0) hi1
    · rw [BDD.eval_and, BDD.eval_not, Bool.and_eq_true, Bool.not_eq_true'] at hz
      refine .inr ⟨x, ⟨hz.1, ?_⟩, ?_⟩
      · rw [uAt_top_false b bs x hz.2]; exact hpos
      · beta_reduce; rw [uAt_top_false b bs x hz.2]; exact hv
  · rintro x ⟨hz, hpos⟩
    beta_reduce
    cases hb : b.eval x
    · rw [uAt_top_false b bs x hb] at hpos ⊢
      exact hle x ⟨by simp [hz, hb], hpos⟩
    · rw [(log_top b bs x hb).1]
      refine le_trans ?_ hi2
      have := hM.2 x
      rw [uAt_masked, if_pos (by simp [hz, hb])] at this
      exact div_le_div_of_nonneg_right (by exact_mod_cast this) (hc _).le

theorem maxBoundsLoop_spec (f : List (BDD m)) (hf : f.length ≤ 256) :
    ∀ (bs : List (BDD m)) (z : BDD m) (res : ℚ × ℚ), bs.length ≤ 1023 → 0 ≤ res.1 → 0 ≤ res.2 →
    ∃ v, maxBoundsLoop f bs z res = .ok v ∧
      MaxOver (fun x => z.eval x = true ∧ 0 < uAt bs.reverse x)
        (fun x => uAt f x / (2 ^ (Nat.log 2 (uAt bs.reverse x) + 1) - 1)) res.1 v.1 ∧
      MaxOver (fun x => z.eval x = true ∧ 0 < uAt bs.reverse x)
        (fun x => uAt f x / 2 ^ Nat.log 2 (uAt bs.reverse x)) res.2 v.2
  | [], z, res, _, _, _ => ⟨res, rfl, ⟨.inl rfl, le_rfl, by simp⟩, ⟨.inl rfl, le_rfl, by simp⟩⟩
  | b :: bs, z, res, hl, h1, h2 => by
      have hl' : bs.length + 1 ≤ 1023 := by simpa using hl
      have hM := getMaxValue_spec (f.map (·.and (z.and b))) (by simpa using hf)
      set M := getMaxValue (f.map (·.and (z.and b))) with hMdef
      have hc1 : ∀ n : Nat, (0 : ℚ) < 2 ^ (n + 1) - 1 := fun n => by
        have : (1 : ℚ) ≤ 2 ^ n := one_le_pow₀ (by norm_num)
        rw [pow_succ]; linarith
      have hc2 : ∀ n : Nat, (0 : ℚ) < 2 ^ n := fun n => by positivity
      obtain ⟨v, hv, hv1, hv2⟩ := maxBoundsLoop_spec f hf bs (z.and b.not)
        (max res.1 (M / (2 ^ (bs.length + 1) - 1)), max res.2 (M / 2 ^ bs.length)) (by omega)
        (le_max_of_le_left h1) (le_max_of_le_left h2)
      refine ⟨v, ?_, ?_, ?_⟩
      · simp only [maxBoundsLoop, pow2, if_neg (show ¬ bs.length + 1 ≥ 1024 by omega),
          if_neg (show ¬ bs.length ≥ 1024 by omega), fdiv, if_neg (hc1 bs.length).ne',
          if_neg (hc2 bs.length).ne', bind, Except.bind, ← hMdef, hv]
      · exact maxOver_step f b z bs (fun n => 2 ^ (n + 1) - 1) hc1 res.1 v.1 h1 M hM hv1
      · exact maxOver_step f b z bs (fun n => 2 ^ n) hc2 res.2 v.2 h2 M hM hv2

theorem maxOver_isMax {P : Asg → Prop} {g : Asg → ℚ} {v : ℚ} (h : MaxOver P g 0 v)
    (hP : ∀ x, P x) (hg : ∀ x, 0 ≤ g x) : IsMax g v := by
  obtain ⟨h1 | ⟨x, _, h1⟩, h2, h3⟩ := h
  · refine ⟨⟨fun _ => false, le_antisymm (h3 _ (hP _)) ?_⟩, fun x => h3 x (hP x)⟩
    rw [h1]; exact hg _
  · exact ⟨⟨x, h1.symm⟩, fun x => h3 x (hP x)⟩

theorem maximumRelativeValueBounds_spec (f g : List (BDD m)) (hf : f.length ≤ 256) (hg0 : g ≠ [])
    (hg : g.length ≤ 1023) :
    ∃ v, maximumRelativeValueBounds f g = .ok v ∧
      IsMax (fun x => (uAt f x : ℚ) / (2 ^ (Nat.log 2 (max 1 (uAt g x)) + 1) - 1)) v.1 ∧
      IsMax (fun x => (uAt f x : ℚ) / 2 ^ Nat.log 2 (max 1 (uAt g x))) v.2 := by
  obtain ⟨F, hF, hFl, hFv⟩ := bddMaxOne_spec g hg0
  obtain ⟨v, hv, h1, h2⟩ := maxBoundsLoop_spec f hf F.reverse .one (0, 0) (by simpa [hFl] using hg)
    le_rfl le_rfl
  simp only [List.reverse_reverse, hFv] at h1 h2
  refine ⟨v, by simp only [maximumRelativeValueBounds, hF, bind, Except.bind, hv], ?_, ?_⟩
  · refine maxOver_isMax h1 (fun x => ⟨by simp, by omega⟩) (fun x => div_nonneg (by positivity) ?_)
    have : (1 : ℚ) ≤ 2 ^ (Nat.log 2 (max 1 (uAt g x)) + 1) := one_le_pow₀ (by norm_num)
    linarith
  · exact maxOver_isMax h2 (fun x => ⟨by simp, by omega⟩) (fun x => by positivity)

/-- The bounds at one input. -/
theorem bounds_at (a u : Nat) (hu : 0 < u) :
    (a : ℚ) / (2 ^ (Nat.log 2 u + 1) - 1) ≤ a / u ∧ (a : ℚ) / u ≤ a / 2 ^ Nat.log 2 u ∧
      (a : ℚ) / 2 ^ Nat.log 2 u ≤ 2 * (a / (2 ^ (Nat.log 2 u + 1) - 1)) := by
  have h1 : 2 ^ Nat.log 2 u ≤ u := Nat.pow_log_le_self 2 hu.ne'
  have h2 : u + 1 ≤ 2 ^ (Nat.log 2 u + 1) := Nat.lt_pow_succ_log_self (by norm_num) u
  have h1' : (2 : ℚ) ^ Nat.log 2 u ≤ u := by exact_mod_cast h1
  have h2' : (u : ℚ) + 1 ≤ 2 ^ (Nat.log 2 u + 1) := by exact_mod_cast h2
  have hp : (0 : ℚ) < 2 ^ Nat.log 2 u := by positivity
  have hu' : (0 : ℚ) < u := by exact_mod_cast hu
  have ha : (0 : ℚ) ≤ a := by positivity
  refine ⟨div_le_div_of_nonneg_left ha hu' (by linarith), div_le_div_of_nonneg_left ha hp h1', ?_⟩
  rw [← mul_div_assoc, div_le_div_iff₀ hp (by linarith), pow_succ]
  nlinarith

theorem avgBoundsLoop_spec (f : List (BDD m)) (N : Nat) (hf : f.length + N ≤ 256) (hfN : Fits N f) :
    ∀ (bs : List (BDD m)) (z : BDD m) (res : ℚ × ℚ), bs.length ≤ 1023 → Fits N (z :: bs) →
    avgBoundsLoop f bs z res = .ok
      (res.1 + mean N (fun x => if z.eval x = true ∧ 0 < uAt bs.reverse x then
        (uAt f x : ℚ) / (2 ^ (Nat.log 2 (uAt bs.reverse x) + 1) - 1) else 0),
       res.2 + mean N (fun x => if z.eval x = true ∧ 0 < uAt bs.reverse x then
        (uAt f x : ℚ) / 2 ^ Nat.log 2 (uAt bs.reverse x) else 0))
  | [], z, res, _, _ => by simp [avgBoundsLoop, mean_const]
  | b :: bs, z, res, hl, hfit => by
      have hl' : bs.length + 1 ≤ 1023 := by simpa using hl
      have hz := hfit z (by simp)
      have hb := hfit b (by simp)
      have hzb : Fits N (f.map (·.and (z.and b))) := by
        intro c hc
        obtain ⟨a, ha, rfl⟩ := List.mem_map.mp hc
        exact fits_and (hfN a ha) (fits_and hz hb)
      have havg := averageValue_spec (f.map (·.and (z.and b))) N N hzb
        (fun c hc => supportSize_le_of_fits (hzb c hc)) (by simpa using hf)
      have hbn : ∀ v ∈ b.not.supportIndices, v < N := hb
      have hrec := fun res => avgBoundsLoop_spec f N hf hfN bs (z.and b.not) res (by omega) (by
        intro c hc
        rcases List.mem_cons.mp hc with rfl | hc
        · exact fits_and hz hbn
        · exact hfit c (by simp [hc]))
      have hc1 : ∀ n : Nat, (0 : ℚ) < 2 ^ (n + 1) - 1 := fun n => by
        have : (1 : ℚ) ≤ 2 ^ n := one_le_pow₀ (by norm_num)
        rw [pow_succ]; linarith
      have hc2 : ∀ n : Nat, (0 : ℚ) < 2 ^ n := fun n => by positivity
      have key : ∀ c : Nat → ℚ, mean N (fun x => (uAt (f.map (·.and (z.and b))) x : ℚ)) / c bs.length +
          mean N (fun x => if (z.and b.not).eval x = true ∧ 0 < uAt bs.reverse x then
            (uAt f x : ℚ) / c (Nat.log 2 (uAt bs.reverse x)) else 0) =
          mean N (fun x => if z.eval x = true ∧ 0 < uAt (b :: bs).reverse x then
            (uAt f x : ℚ) / c (Nat.log 2 (uAt (b :: bs).reverse x)) else 0) := by
        intro c
        rw [div_eq_mul_inv, ← mean_mul_right, ← mean_add]
        apply mean_congr
        intro x
        rw [uAt_masked, BDD.eval_and, BDD.eval_and, BDD.eval_not]
        cases hbx : b.eval x
        · rw [uAt_top_false b bs x hbx]
          simp
        · obtain ⟨hlog, hpos⟩ := log_top b bs x hbx
          rw [hlog]
          cases z.eval x
          · simp
          · simp only [hpos, Bool.and_true, Bool.not_true, Bool.and_false, and_self, if_true,
              Bool.false_eq_true, false_and, if_false, add_zero, div_eq_mul_inv]
      simp only [avgBoundsLoop, pow2, if_neg (show ¬ bs.length + 1 ≥ 1024 by omega),
          if_neg (show ¬ bs.length ≥ 1024 by omega), fdiv, if_neg (hc1 bs.length).ne',
          if_neg (hc2 bs.length).ne', bind, Except.bind, havg, hrec, add_assoc]
      rw [key (fun n => 2 ^ (n + 1) - 1), key (fun n => 2 ^ n)]

theorem averageRelativeValue_spec (f g : List (BDD m)) (N : Nat) (hfN : Fits N f) (hgN : Fits N g)
    (hf : f.length + N ≤ 256) (hg0 : g ≠ []) (hg : g.length ≤ 1023) :
    averageRelativeValue f g = .ok
      (mean N (fun x => (uAt f x : ℚ) / (2 ^ (Nat.log 2 (max 1 (uAt g x)) + 1) - 1)),
       mean N (fun x => (uAt f x : ℚ) / 2 ^ Nat.log 2 (max 1 (uAt g x)))) := by
  obtain ⟨F, hF, hFl, hFv⟩ := bddMaxOne_spec g hg0
  have hFN : Fits N F := by
    apply fits_of_uAt
    intro x y hxy
    rw [hFv, hFv, uAt, uAt, bitsAt_agree hgN hxy]
  have := avgBoundsLoop_spec f N hf hfN F.reverse .one (0, 0) (by simpa [hFl] using hg) (by
    intro c hc
    rcases List.mem_cons.mp hc with rfl | hc
    · simp [BDD.supportIndices, BDD.one, Edge.one, DD.vars]
    · exact hFN c (by simpa using hc))
  simp only [averageRelativeValue, hF, bind, Except.bind, this, List.reverse_reverse, hFv, zero_add]
  apply congrArg Except.ok
  apply Prod.ext <;> dsimp only <;>
  · refine mean_congr N (fun x => ?_)
    rw [if_pos ⟨by simp, by omega⟩]

end Verif

import Verif.Proofs.Arith
import Mathlib.Tactic.IntervalCases

/-!
# Lemmas for `bdd_absolute_difference`
-/

namespace Verif

variable {m : Mgr}

theorem signExtend_spec (f : List (BDD m)) (n : Nat) (h : f ≠ []) :
    ∃ r, signExtend f n = .ok r ∧ r.length = max f.length n ∧ r ≠ [] ∧
      ∀ x, sAt r x = sAt f x := by
  unfold signExtend
  split
  · rename_i hlt
    refine ⟨f ++ List.replicate (n - f.length) (f.getLast h), ?_, ?_, ?_, fun x => ?_⟩
    · simp [vback_ne_nil h, bind, Except.bind]
    · simp; omega
    · simp [h]
    · have hne : f ++ List.replicate (n - f.length) (f.getLast h) ≠ [] := by simp [h]
      rw [sAt_eq _ x hne, sAt_eq f x h]
      have hk : n - f.length ≠ 0 := by omega
      have hlast : (f ++ List.replicate (n - f.length) (f.getLast h)).getLast hne = f.getLast h := by
        rw [List.getLast_append_of_ne_nil (h₁ := hne) (by simpa using hk)]
        simp
      rw [hlast, uAt_append]
      simp only [List.length_append, List.length_replicate]
      cases hb : (f.getLast h).eval x
      · have : uAt (List.replicate (n - f.length) (f.getLast h)) x = 0 := by
          simp [uAt, hb, uval_replicate_false]
        simp [this]
      · have h1 : uAt (List.replicate (n - f.length) (f.getLast h)) x + 1 = 2 ^ (n - f.length) := by
          simp [uAt, hb, uval_replicate_true]
        have h1' : (uAt (List.replicate (n - f.length) (f.getLast h)) x : Int) =
            2 ^ (n - f.length) - 1 := by
          have : (uAt (List.replicate (n - f.length) (f.getLast h)) x : Int) + 1 =
            2 ^ (n - f.length) := by exact_mod_cast h1
          omega
        push_cast
        rw [h1', pow_add]
        simp only [if_true]
        ring
  · rename_i hlt
    exact ⟨f, rfl, by omega, h, fun _ => rfl⟩

theorem smallerLoop_ok : ∀ (f g : List (BDD m)), f.length ≤ g.length →
    ∃ b, smallerLoop f g = .ok b
  | [], g, _ => ⟨true, rfl⟩
  | f :: fs, [], h => by simp at h
  | f :: fs, g :: gs, h => by
    unfold smallerLoop
    split
    · exact ⟨false, rfl⟩
    · exact smallerLoop_ok fs gs (by simpa using h)

/-- The distance on the cycle of length `P`. -/
theorem wrap_abs {D s P k : Int} (hP : 0 < P) (hs : s = D + P * k) (h1 : -P ≤ 2 * s)
    (h2 : 2 * s < P) (hD1 : -P < D) (hD2 : D < P) :
    |s| = if 2 * |D| ≤ P then |D| else P - |D| := by
  have hk1 : k ≤ 1 := by by_contra hc; nlinarith
  have hk2 : -1 ≤ k := by by_contra hc; nlinarith
  interval_cases k
  · rcases abs_cases s with h | h <;> rcases abs_cases D with h' | h' <;> split <;> omega
  · rcases abs_cases s with h | h <;> rcases abs_cases D with h' | h' <;> split <;> omega
  · rcases abs_cases s with h | h <;> rcases abs_cases D with h' | h' <;> split <;> omega

/-- Equal-length core of `bdd_absolute_difference`. -/
theorem absDiff_core (f g : List (BDD m)) (hf : f ≠ []) (hl : f.length = g.length) :
    ∃ r, (do
      let difference ← bddSubtract f g
      bddAbs .twosComplement difference) = .ok r ∧ r.length = f.length ∧
      ∀ x, (uAt r x : Int) = if 2 * |sAt f x - sAt g x| ≤ 2 ^ f.length
        then |sAt f x - sAt g x| else 2 ^ f.length - |sAt f x - sAt g x| := by
  have hg : g ≠ [] := by
    intro h; rw [h] at hl; exact hf (List.length_eq_zero_iff.mp (by simpa using hl))
  obtain ⟨d, hd, hdl, hdv⟩ := bddSubtract_spec f g hl.le
  have hdne : d ≠ [] := by
    intro h; rw [h] at hdl; exact hf (List.length_eq_zero_iff.mp (by simpa using hdl.symm))
  obtain ⟨r, hr, hrl, hrv⟩ := bddAbs_spec d hdne
  refine ⟨r, by simp [hd, hr, bind, Except.bind], by omega, fun x => ?_⟩
  rw [hrv x]
  have hP : (0 : Int) < 2 ^ f.length := by positivity
  have bf := sAt_bounds f x hf
  have bg := sAt_bounds g x hg
  have bd := sAt_bounds d x hdne
  rw [← hl] at bg
  rw [hdl] at bd
  have ef := sAt_eq f x hf
  have eg := sAt_eq g x hg
  have ed := sAt_eq d x hdne
  have key : ∃ k, sAt d x = (sAt f x - sAt g x) + 2 ^ f.length * k := by
    have hmod := hdv x
    have hdiv := Int.emod_add_mul_ediv ((uAt f x : Int) - uAt g x) (2 ^ f.length)
    rw [← hmod] at hdiv
    rw [ed, ef, eg, hdl, ← hl]
    refine ⟨-(((uAt f x : Int) - uAt g x) / 2 ^ f.length) +
      (if (f.getLast hf).eval x then 1 else 0) - (if (g.getLast hg).eval x then 1 else 0)
      - (if (d.getLast hdne).eval x then 1 else 0), ?_⟩
    have : (uAt d x : Int) = (uAt f x : Int) - uAt g x
        - 2 ^ f.length * (((uAt f x : Int) - uAt g x) / 2 ^ f.length) := by omega
    rw [this]
    split <;> split <;> split <;> ring
  obtain ⟨k, hk⟩ := key
  exact wrap_abs hP hk bd.1 bd.2 (by omega) (by omega)

theorem bddAbsoluteDifference_core (r : NumRep) (f g f0 g0 : List (BDD m))
    (hf0 : f0 = withSignBit r f) (hg0 : g0 = withSignBit r g)
    (hf : f0 ≠ []) (hg : g0 ≠ []) :
    ∃ d, bddAbsoluteDifference r f g = .ok d ∧ d.length = max f0.length g0.length ∧
      ∀ x, (uAt d x : Int) = if 2 * |sAt f0 x - sAt g0 x| ≤ 2 ^ (max f0.length g0.length)
        then |sAt f0 x - sAt g0 x|
        else 2 ^ (max f0.length g0.length) - |sAt f0 x - sAt g0 x| := by
  obtain ⟨f1, hf1, hf1l, hf1n, hf1v⟩ := signExtend_spec f0 g0.length hf
  obtain ⟨g1, hg1, hg1l, hg1n, hg1v⟩ := signExtend_spec g0 f1.length hg
  have hl : f1.length = g1.length := by omega
  obtain ⟨b, hb⟩ := smallerLoop_ok f1 g1 hl.le
  have hlen : f1.length = max f0.length g0.length := hf1l
  cases b with
  | false =>
    obtain ⟨d, hd, hdl, hdv⟩ := absDiff_core f1 g1 hf1n hl
    refine ⟨d, ?_, by omega, fun x => ?_⟩
    · simp only [bddAbsoluteDifference, ← hf0, ← hg0, hf1, hg1, hb, bind, Except.bind] at hd ⊢
      simpa using hd
    · rw [hdv x, hf1v, hg1v, hlen]
  | true =>
    obtain ⟨d, hd, hdl, hdv⟩ := absDiff_core g1 f1 hg1n hl.symm
    refine ⟨d, ?_, by omega, fun x => ?_⟩
    · simp only [bddAbsoluteDifference, ← hf0, ← hg0, hf1, hg1, hb, bind, Except.bind] at hd ⊢
      simpa using hd
    · rw [hdv x, hf1v, hg1v, ← hl, hlen, abs_sub_comm]

theorem sAt_append_zero (f : List (BDD m)) (x : Asg) : sAt (f ++ [.zero]) x = uAt f x := by
  rw [sAt, bitsAt_append, bitsAt_cons, bitsAt_nil, tcval_append_singleton]
  simp [uAt]

end Verif

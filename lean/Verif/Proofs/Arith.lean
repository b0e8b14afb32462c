import Verif.Model.CuddHelpers
import Verif.Proofs.BitVec
import Mathlib.Tactic.Ring
import Mathlib.Tactic.NormNum

/-!
# Lemmas for `cudd_helpers.cpp` arithmetic
-/

namespace Verif

variable {m : Mgr}

theorem toNat_xor3 (a b c : Bool) :
    ((a ^^ b) ^^ c).toNat + 2 * ((a && b || a && c) || b && c).toNat = a.toNat + b.toNat + c.toNat := by
  cases a <;> cases b <;> cases c <;> rfl

theorem bit_mod (s M P : Nat) (hs : s < 2) : (s + 2 * M) % (P * 2) = s + 2 * (M % P) := by
  rw [Nat.mul_comm P 2, Nat.mod_mul]
  have h1 : (s + 2 * M) % 2 = s := by omega
  have h2 : (s + 2 * M) / 2 = M := by omega
  rw [h1, h2]

theorem addLoop_spec : ∀ (f g : List (BDD m)) (c : BDD m), f.length ≤ g.length →
    ∃ r, addLoop f g c = .ok r ∧ r.length = f.length ∧
      ∀ x, uAt r x = (uAt f x + uAt g x + (c.eval x).toNat) % 2 ^ f.length
  | [], g, c, _ => ⟨[], rfl, rfl, fun x => by simp [Nat.mod_one]⟩
  | f :: fs, [], c, h => by simp at h
  | f :: fs, g :: gs, c, h => by
    obtain ⟨r, hr, hl, hv⟩ := addLoop_spec fs gs (fullAdder f g c).2 (by simpa using h)
    refine ⟨(fullAdder f g c).1 :: r, ?_, by simp [hl], fun x => ?_⟩
    · simp [addLoop, hr, bind, Except.bind]
    · have hx := toNat_xor3 (f.eval x) (g.eval x) (c.eval x)
      simp only [uAt_cons, hv x, List.length_cons, pow_succ]
      have he1 : (fullAdder f g c).1.eval x = ((f.eval x ^^ g.eval x) ^^ c.eval x) := by
        simp [fullAdder]
      have he2 : (fullAdder f g c).2.eval x =
          ((f.eval x && g.eval x || f.eval x && c.eval x) || g.eval x && c.eval x) := by
        simp [fullAdder]
      rw [he1, he2, ← bit_mod]
      · congr 1
        omega
      · cases ((f.eval x ^^ g.eval x) ^^ c.eval x) <;> simp

theorem subLoop_eq (f g : List (BDD m)) (c : BDD m) :
    subLoop f g c = addLoop f (g.map BDD.not) c := by
  induction f generalizing g c with
  | nil => simp [subLoop, addLoop]
  | cons f fs ih =>
    cases g with
    | nil => rfl
    | cons g gs => simp [subLoop, addLoop, ih]

theorem addLoop_ub : ∀ (f g : List (BDD m)) (c : BDD m), g.length < f.length →
    addLoop f g c = .error .ub
  | [], g, c, h => by simp at h
  | f :: fs, [], c, _ => rfl
  | f :: fs, g :: gs, c, h => by
    simp [addLoop, addLoop_ub fs gs _ (by simpa using h), bind, Except.bind]

theorem bddAdd_spec (f g : List (BDD m)) (h : f.length ≤ g.length) :
    ∃ r, bddAdd f g = .ok r ∧ r.length = f.length ∧
      ∀ x, uAt r x = (uAt f x + uAt g x) % 2 ^ f.length := by
  obtain ⟨r, hr, hl, hv⟩ := addLoop_spec f g .zero h
  exact ⟨r, hr, hl, fun x => by simpa using hv x⟩

theorem uAt_map_not (g : List (BDD m)) (x : Asg) :
    uAt (g.map BDD.not) x + uAt g x + 1 = 2 ^ g.length := by
  have := uval_map_not (bitsAt g x)
  simpa [uAt, bitsAt, Function.comp_def] using this

theorem bddSubtract_spec (f g : List (BDD m)) (h : f.length ≤ g.length) :
    ∃ r, bddSubtract f g = .ok r ∧ r.length = f.length ∧
      ∀ x, (uAt r x : Int) = ((uAt f x : Int) - uAt g x) % 2 ^ f.length := by
  obtain ⟨r, hr, hl, hv⟩ := addLoop_spec f (g.map BDD.not) .one (by simpa using h)
  refine ⟨r, by rw [bddSubtract, subLoop_eq, hr], hl, fun x => ?_⟩
  rw [hv x]
  have hn := uAt_map_not g x
  simp only [BDD.eval_one, Bool.toNat_true]
  have hd : (2 : Int) ^ f.length ∣ 2 ^ g.length := pow_dvd_pow _ h
  obtain ⟨k, hk⟩ := hd
  have hn' : (uAt (g.map BDD.not) x : Int) = 2 ^ f.length * k - uAt g x - 1 := by
    have : (uAt (g.map BDD.not) x : Int) + uAt g x + 1 = 2 ^ g.length := by exact_mod_cast hn
    rw [← hk]; omega
  push_cast
  rw [hn']
  have : (uAt f x : Int) + (2 ^ f.length * k - uAt g x - 1) + 1 =
    (uAt f x - uAt g x) + 2 ^ f.length * k := by ring
  rw [this, Int.add_mul_emod_self_left]

theorem bddSubtract_ub (f g : List (BDD m)) (h : g.length < f.length) :
    bddSubtract f g = .error .ub := by
  rw [bddSubtract, subLoop_eq]
  exact addLoop_ub _ _ _ (by simpa using h)

/-! ### Absolute value -/

theorem uAt_map_xor (f : List (BDD m)) (s : BDD m) (x : Asg) :
    uAt (f.map (·.xor s)) x = if s.eval x then 2 ^ f.length - 1 - uAt f x else uAt f x := by
  have h : bitsAt (f.map (·.xor s)) x = (bitsAt f x).map (fun b => b ^^ s.eval x) := by
    simp [bitsAt, Function.comp_def]
  rw [uAt, h]
  cases hs : s.eval x
  · simp [uAt]
  · have := uval_map_not (bitsAt f x)
    simp only [Bool.xor_true, if_true]
    rw [bitsAt_length] at this
    simp only [uAt]
    omega

theorem sAt_eq (f : List (BDD m)) (x : Asg) (h : f ≠ []) :
    sAt f x = (uAt f x : Int) - (if (f.getLast h).eval x then 2 ^ f.length else 0) := by
  simp only [sAt, tcval, uAt, bitsAt_length]
  have : (bitsAt f x).getLast? = some ((f.getLast h).eval x) := by
    simp [bitsAt, List.getLast?_map, List.getLast?_eq_getLast_of_ne_nil h]
  rw [this]
  simp

theorem uAt_sign (f : List (BDD m)) (x : Asg) (h : f ≠ []) :
    if (f.getLast h).eval x then 2 ^ f.length ≤ 2 * uAt f x else 2 * uAt f x < 2 ^ f.length := by
  obtain ⟨l, a, rfl⟩ : ∃ l a, f = l ++ [a] := ⟨_, _, (List.dropLast_append_getLast h).symm⟩
  have := uAt_lt l x
  simp only [List.getLast_append_singleton, uAt_append, List.length_append, List.length_singleton,
    pow_succ, uAt_cons, uAt_nil]
  cases a.eval x <;> simp <;> omega

theorem sAt_bounds (f : List (BDD m)) (x : Asg) (h : f ≠ []) :
    -(2 ^ f.length : Int) ≤ 2 * sAt f x ∧ 2 * sAt f x < 2 ^ f.length := by
  have h1 := uAt_sign f x h
  have h2 := uAt_lt f x
  rw [sAt_eq f x h]
  have h2' : (uAt f x : Int) < 2 ^ f.length := by exact_mod_cast h2
  split at h1
  · rename_i hs
    have h1' : (2 : Int) ^ f.length ≤ 2 * uAt f x := by exact_mod_cast h1
    rw [if_pos hs]
    constructor <;> omega
  · rename_i hs
    have h1' : 2 * (uAt f x : Int) < 2 ^ f.length := by exact_mod_cast h1
    rw [if_neg hs]
    constructor <;> omega

theorem bddAbs_spec (f : List (BDD m)) (h : f ≠ []) :
    ∃ r, bddAbs .twosComplement f = .ok r ∧ r.length = f.length ∧
      ∀ x, (uAt r x : Int) = |sAt f x| := by
  set s := f.getLast h with hs
  obtain ⟨r, hr, hl, hv⟩ := bddSubtract_spec (f.map (·.xor s)) (List.replicate f.length s) (by simp)
  refine ⟨r, ?_, by simpa using hl, fun x => ?_⟩
  · simp [bddAbs, vback_ne_nil h, bind, Except.bind, ← hs, hr]
  · rw [hv x, sAt_eq f x h, ← hs, uAt_map_xor]
    have hlt := uAt_lt f x
    have hlt' : (uAt f x : Int) < 2 ^ f.length := by exact_mod_cast hlt
    have hsg := uAt_sign f x h
    rw [← hs] at hsg
    have hpos : (0 : Int) < 2 ^ f.length := by positivity
    simp only [List.length_map]
    cases hb : s.eval x
    · have : uAt (List.replicate f.length s) x = 0 := by
        simp [uAt, hb, uval_replicate_false]
      simp only [Bool.false_eq_true, if_false, this]
      rw [abs_of_nonneg (by omega)]
      simp only [Nat.cast_zero, sub_zero]
      exact Int.emod_eq_of_lt (by omega) hlt'
    · have h1 : uAt (List.replicate f.length s) x + 1 = 2 ^ f.length := by
        simp [uAt, hb, uval_replicate_true]
      have h1' : (uAt (List.replicate f.length s) x : Int) = 2 ^ f.length - 1 := by
        have : (uAt (List.replicate f.length s) x : Int) + 1 = 2 ^ f.length := by exact_mod_cast h1
        omega
      rw [hb] at hsg
      simp only [if_true] at hsg ⊢
      have hsg' : (2 : Int) ^ f.length ≤ 2 * uAt f x := by exact_mod_cast hsg
      have h2 : ((2 ^ f.length - 1 - uAt f x : Nat) : Int) = 2 ^ f.length - 1 - uAt f x := by
        have : 1 + uAt f x ≤ 2 ^ f.length := by omega
        rw [Nat.sub_sub, Nat.cast_sub this]; push_cast; ring
      rw [h1', h2, abs_of_nonpos (by omega)]
      have : (2 : Int) ^ f.length - 1 - uAt f x - (2 ^ f.length - 1) =
        (2 ^ f.length - uAt f x) + 2 ^ f.length * (-1) := by ring
      rw [this, Int.add_mul_emod_self_left, Int.emod_eq_of_lt (by omega) (by omega)]
      ring

end Verif

import Verif.Proofs.Adders
import Verif.Proofs.Mean

/-!
# Averages over the operands of an adder
-/

namespace Verif

variable {m : Mgr}

theorem opA_update {n v i : Nat} (x : Asg) (b : Bool) (hi : i < n) (h : 2 * i < v) :
    (opA n (Function.update x v b)).testBit i = (opA n x).testBit i := by
  rw [opA_testBit _ hi, opA_testBit _ hi, Function.update_of_ne (by omega)]

theorem opB_update {n v i : Nat} (x : Asg) (b : Bool) (hi : i < n) (h : 2 * i + 1 < v) :
    (opB n (Function.update x v b)).testBit i = (opB n x).testBit i := by
  rw [opB_testBit _ hi, opB_testBit _ hi, Function.update_of_ne (by omega)]

/-- A carry depends on the bits below it only. -/
theorem carryFrom_congr {a b a' b' s k : Nat} (hs : s ≤ k) (ha : ∀ i < k, a.testBit i = a'.testBit i)
    (hb : ∀ i < k, b.testBit i = b'.testBit i) : carryFrom a b s k = carryFrom a' b' s k := by
  induction k with
  | zero =>
    obtain rfl : s = 0 := by omega
    rw [carryFrom_self, carryFrom_self]
  | succ k ih =>
    by_cases h : s = k + 1
    · subst h
      rw [carryFrom_self, carryFrom_self]
    · rw [carryFrom_succ _ _ (by omega), carryFrom_succ _ _ (by omega), ha k (by omega), hb k (by omega),
        ih (by omega) (fun i hi => ha i (by omega)) (fun i hi => hb i (by omega))]

/-- `g` depends on the operand bits below `k` only. -/
def Below (k : Nat) (g : Asg → ℚ) : Prop := ∀ x v b, 2 * k ≤ v → g (Function.update x v b) = g x

theorem carry_update {n s k v : Nat} (hs : s ≤ k) (hk : k ≤ n) (hv : 2 * k ≤ v) (x : Asg) (b : Bool) :
    carryFrom (opA n (Function.update x v b)) (opB n (Function.update x v b)) s k =
      carryFrom (opA n x) (opB n x) s k :=
  carryFrom_congr hs (fun i hi => opA_update x b (by omega) (by omega))
    (fun i hi => opB_update x b (by omega) (by omega))

theorem below_carry {n s k : Nat} (hs : s ≤ k) (hk : k ≤ n) :
    Below k (fun x => ind (carryFrom (opA n x) (opB n x) s k)) := fun x v b hv => by
  dsimp only
  rw [carry_update hs hk hv]

/-- The next pair of operand bits is independent of what lies below. -/
theorem mean_pair {n k : Nat} (hk : k < n) (g : Bool → Bool → Asg → ℚ) (hg : ∀ a b, Below k (g a b)) :
    mean (2 * n) (fun x => g ((opA n x).testBit k) ((opB n x).testBit k) x) =
      (mean (2 * n) (g true true) + mean (2 * n) (g true false) + mean (2 * n) (g false true) +
        mean (2 * n) (g false false)) / 4 := by
  have e : ∀ x, g ((opA n x).testBit k) ((opB n x).testBit k) x = g (x (2 * k)) (x (2 * k + 1)) x := fun x => by
    rw [opA_testBit x hk, opB_testBit x hk]
  rw [mean_congr _ e, mean_split _ _ (2 * k) (by omega)]
  have e1 : ∀ c, mean (2 * n) (fun x => g (Function.update x (2 * k) c (2 * k))
      (Function.update x (2 * k) c (2 * k + 1)) (Function.update x (2 * k) c)) =
      (mean (2 * n) (g c true) + mean (2 * n) (g c false)) / 2 := by
    intro c
    rw [mean_split _ _ (2 * k + 1) (by omega)]
    congr 2
    · apply mean_congr
      intro x
      rw [hg _ _ _ _ _ (by omega), hg _ _ _ _ _ (by omega)]
      simp
    · apply mean_congr
      intro x
      rw [hg _ _ _ _ _ (by omega), hg _ _ _ _ _ (by omega)]
      simp
  rw [e1, e1]
  ring

/-- How often there is a carry into position `k` when the bits from `s` on are added. -/
theorem mean_carry {n s : Nat} : ∀ {k : Nat}, s ≤ k → k ≤ n →
    mean (2 * n) (fun x => ind (carryFrom (opA n x) (opB n x) s k)) = (1 - 1 / 2 ^ (k - s)) / 2 := by
  intro k hs
  induction k, hs using Nat.le_induction with
  | base =>
    intro _
    rw [mean_congr _ (fun x => by rw [carryFrom_self]), mean_const]
    simp
  | succ k hs ih =>
    intro hk
    have e : ∀ x, ind (carryFrom (opA n x) (opB n x) s (k + 1)) =
        (fun a b x => ind (maj a b (carryFrom (opA n x) (opB n x) s k)))
          ((opA n x).testBit k) ((opB n x).testBit k) x := fun x => by
      rw [carryFrom_succ _ _ hs]
    rw [mean_congr _ e, mean_pair (by omega) (fun a b x => ind (maj a b (carryFrom (opA n x) (opB n x) s k)))
      (fun a b x v c hv => by dsimp only; rw [carry_update hs (by omega) hv])]
    have t1 : ∀ c, maj true true c = true := fun c => by simp [maj]
    have t2 : ∀ c, maj true false c = c := fun c => by simp [maj]
    have t3 : ∀ c, maj false true c = c := fun c => by simp [maj]
    have t4 : ∀ c, maj false false c = false := fun c => by simp [maj]
    simp only [t1, t2, t3, t4, ih (by omega), ind_true, ind_false, mean_const]
    rw [show k + 1 - s = (k - s) + 1 by omega, pow_succ]
    field_simp
    ring

/-- A later start only loses carries. -/
theorem ind_lost {a b s t k : Nat} (h : s ≤ t) (hk : t ≤ k) :
    ind (carryFrom a b s k && !carryFrom a b t k) = ind (carryFrom a b s k) - ind (carryFrom a b t k) := by
  have := carryFrom_mono a b h hk
  cases h1 : carryFrom a b s k <;> cases h2 : carryFrom a b t k <;> simp_all

/-- How often a later start loses the carry. -/
theorem mean_lost {n s t k : Nat} (h : s ≤ t) (ht : t ≤ k) (hk : k ≤ n) :
    mean (2 * n) (fun x => ind (carryFrom (opA n x) (opB n x) s k && !carryFrom (opA n x) (opB n x) t k)) =
      ((2 : ℚ) ^ t - 2 ^ s) / 2 ^ (k + 1) := by
  rw [mean_congr _ (fun x => ind_lost h ht), mean_sub, mean_carry (by omega) hk, mean_carry ht hk]
  have e : ∀ j ≤ k, (2 : ℚ) ^ k = 2 ^ (k - j) * 2 ^ j := fun j hj => by rw [← pow_add, Nat.sub_add_cancel hj]
  have h1 := e s (by omega)
  have h2 := e t ht
  have h3 : (1 : ℚ) / 2 ^ (k - s) = 2 ^ s / 2 ^ k := by rw [h1]; field_simp
  have h4 : (1 : ℚ) / 2 ^ (k - t) = 2 ^ t / 2 ^ k := by rw [h2]; field_simp
  rw [h3, h4, pow_succ]
  field_simp
  ring

/-- The average weight of the carries that an adder drops. -/
theorem mean_dropped {n : Nat} {s : Nat → Nat} (hle : ∀ k, s k ≤ k) (hmono : ∀ k < n, s k ≤ s (k + 1)) :
    mean (2 * n) (fun x => ((∑ i ∈ Finset.range n, 2 ^ (i + 1) * (carryFrom (opA n x) (opB n x) (s i) (i + 1) &&
      !carryFrom (opA n x) (opB n x) (s (i + 1)) (i + 1)).toNat : Nat) : ℚ)) = ((2 : ℚ) ^ s n - 1) / 2 := by
  have key : ∀ k ≤ n, mean (2 * n) (fun x => ((∑ i ∈ Finset.range k, 2 ^ (i + 1) *
      (carryFrom (opA n x) (opB n x) (s i) (i + 1) &&
      !carryFrom (opA n x) (opB n x) (s (i + 1)) (i + 1)).toNat : Nat) : ℚ)) = ((2 : ℚ) ^ s k - 1) / 2 := by
    intro k
    induction k with
    | zero =>
      intro _
      have : s 0 = 0 := by have := hle 0; omega
      simp [this, mean_const]
    | succ k ih =>
      intro hk
      rw [mean_congr _ (fun x => by rw [Finset.sum_range_succ, Nat.cast_add]), mean_add, ih (by omega)]
      rw [mean_congr _ (fun x => by rw [Nat.cast_mul, ← ind_toNat]), mean_mul_left,
        mean_lost (hmono k (by omega)) (hle _) hk]
      rw [pow_succ]
      push_cast
      field_simp
      ring
  exact key n (le_refl n)

theorem hamming_append {a b a' b' : List Bool} (h : a.length = a'.length) :
    hamming (a ++ b) (a' ++ b') = hamming a a' + hamming b b' := by
  induction a generalizing a' with
  | nil =>
    cases a' with
    | nil => simp [hamming]
    | cons => simp at h
  | cons c a ih =>
    cases a' with
    | nil => simp at h
    | cons c' a' =>
      simp only [List.cons_append, hamming, ih (Nat.succ.inj h)]
      omega

theorem hamming_range (k : Nat) (g h : Nat → Bool) :
    hamming ((List.range k).map g) ((List.range k).map h) = ∑ i ∈ Finset.range k, (g i ^^ h i).toNat := by
  induction k with
  | zero => rfl
  | succ k ih =>
    rw [List.range_succ, List.map_append, List.map_append, hamming_append (by simp), ih, Finset.sum_range_succ]
    simp [hamming]

/-- The bits in which an adder differs from the exact sum. -/
theorem AdderOk.hamming {n : Nat} {s : Nat → Nat} {f g : List (BDD m)} (hf : AdderOk n (fun _ => 0) f)
    (hg : AdderOk n s g) (x : Asg) : hamming (bitsAt f x) (bitsAt g x) = ∑ i ∈ Finset.range (n + 1),
      (carryFrom (opA n x) (opB n x) 0 i && !carryFrom (opA n x) (opB n x) (s i) i).toNat := by
  have e : ∀ i, (carryFrom (opA n x) (opB n x) 0 i ^^ carryFrom (opA n x) (opB n x) (s i) i) =
      (carryFrom (opA n x) (opB n x) 0 i && !carryFrom (opA n x) (opB n x) (s i) i) := fun i => by
    have := carryFrom_mono (opA n x) (opB n x) (Nat.zero_le (s i)) (hg.le i)
    cases h1 : carryFrom (opA n x) (opB n x) 0 i <;> cases h2 : carryFrom (opA n x) (opB n x) (s i) i <;>
      simp_all
  rw [hf.bits, hg.bits, hamming_append (by simp), hamming_range, Finset.sum_range_succ]
  congr 1
  · apply Finset.sum_congr rfl
    intro i _
    rw [← e]
    cases (opA n x).testBit i <;> cases (opB n x).testBit i <;> simp
  · rw [← e]
    simp [Verif.hamming]

theorem mean_hamming {n : Nat} {s : Nat → Nat} {f g : List (BDD m)} (hf : AdderOk n (fun _ => 0) f)
    (hg : AdderOk n s g) : mean (2 * n) (fun x => (Verif.hamming (bitsAt f x) (bitsAt g x) : ℚ)) =
      ∑ i ∈ Finset.range (n + 1), ((2 : ℚ) ^ s i - 1) / 2 ^ (i + 1) := by
  rw [mean_congr _ (fun x => by rw [hf.hamming hg])]
  have key : ∀ k ≤ n + 1, mean (2 * n) (fun x => ((∑ i ∈ Finset.range k,
      (carryFrom (opA n x) (opB n x) 0 i && !carryFrom (opA n x) (opB n x) (s i) i).toNat : Nat) : ℚ)) =
      ∑ i ∈ Finset.range k, ((2 : ℚ) ^ s i - 1) / 2 ^ (i + 1) := by
    intro k
    induction k with
    | zero => intro _; simp [mean_const]
    | succ k ih =>
      intro hk
      rw [mean_congr _ (fun x => by rw [Finset.sum_range_succ, Nat.cast_add, ← ind_toNat]), mean_add,
        ih (by omega), mean_lost (Nat.zero_le _) (hg.le k) (by omega), Finset.sum_range_succ, pow_zero]
  exact key (n + 1) (le_refl _)

end Verif

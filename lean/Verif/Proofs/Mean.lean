import Verif.Proofs.BitVec
import Mathlib.Tactic.FieldSimp
import Mathlib.Tactic.Positivity
import Mathlib.Algebra.Order.BigOperators.Group.Finset
import Mathlib.Algebra.Order.Field.Basic
import Mathlib.Data.Fintype.Card

/-!
# The mean over all assignments and CUDD's minterm count
-/

namespace Verif

theorem card_asg (N : Nat) : (Fintype.card (Fin N → Bool) : ℚ) = 2 ^ N := by
  simp

theorem mean_const (N : Nat) (c : ℚ) : mean N (fun _ => c) = c := by
  simp [mean]

theorem mean_add (N : Nat) (g h : Asg → ℚ) : mean N (fun x => g x + h x) = mean N g + mean N h := by
  simp only [mean, Finset.sum_add_distrib, add_div]

theorem mean_sub (N : Nat) (g h : Asg → ℚ) : mean N (fun x => g x - h x) = mean N g - mean N h := by
  simp only [mean, Finset.sum_sub_distrib, sub_div]

theorem mean_mul_left (N : Nat) (c : ℚ) (g : Asg → ℚ) : mean N (fun x => c * g x) = c * mean N g := by
  simp only [mean, ← Finset.mul_sum, mul_div_assoc]

theorem mean_mul_right (N : Nat) (c : ℚ) (g : Asg → ℚ) : mean N (fun x => g x * c) = mean N g * c := by
  simp only [mul_comm _ c, mean_mul_left]

theorem mean_congr (N : Nat) {g h : Asg → ℚ} (H : ∀ x, g x = h x) : mean N g = mean N h := by
  simp only [mean, H]

theorem mean_mono (N : Nat) {g h : Asg → ℚ} (H : ∀ x, g x ≤ h x) : mean N g ≤ mean N h := by
  unfold mean
  gcongr
  exact H _

theorem mean_sum {ι : Type _} (N : Nat) (l : List ι) (g : ι → Asg → ℚ) :
    mean N (fun x => (l.map fun i => g i x).sum) = (l.map fun i => mean N (g i)).sum := by
  induction l with
  | nil => simp [mean_const]
  | cons a l ih => simp only [List.map_cons, List.sum_cons, mean_add, ih]

theorem mean_lt (N : Nat) {g h : Asg → ℚ} (H : ∀ x, g x ≤ h x) (a : Fin N → Bool)
    (ha : g (ext a) < h (ext a)) : mean N g < mean N h := by
  unfold mean
  have : ∑ a : Fin N → Bool, g (ext a) < ∑ a : Fin N → Bool, h (ext a) :=
    Finset.sum_lt_sum (fun i _ => H _) ⟨a, Finset.mem_univ _, ha⟩
  have hp : (0 : ℚ) < 2 ^ N := by positivity
  exact div_lt_div_of_pos_right this hp

/-- Flip one coordinate. -/
def flipAt {N : Nat} (v : Fin N) (a : Fin N → Bool) : Fin N → Bool := Function.update a v (!a v)

theorem flipAt_flipAt {N : Nat} (v : Fin N) (a : Fin N → Bool) : flipAt v (flipAt v a) = a := by
  simp [flipAt]

theorem ext_update {N : Nat} (v : Fin N) (a : Fin N → Bool) (b : Bool) :
    ext (Function.update a v b) = Function.update (ext a) v.val b := by
  funext w
  by_cases hw : w = v.val
  · subst hw; simp [ext]
  · simp only [ext, Function.update_of_ne hw]
    split
    · rename_i h
      rw [Function.update_of_ne]
      intro e; exact hw (by rw [← e])
    · rfl

theorem ext_apply {N : Nat} (v : Fin N) (a : Fin N → Bool) : ext a v.val = a v := by
  simp [ext]

/-- Splitting the mean at one variable. -/
theorem mean_split (N : Nat) (g : Asg → ℚ) (v : Nat) (hv : v < N) :
    mean N g = (mean N (fun x => g (Function.update x v true)) +
      mean N (fun x => g (Function.update x v false))) / 2 := by
  have key : ∑ a : Fin N → Bool, g (Function.update (ext a) v true) +
      ∑ a : Fin N → Bool, g (Function.update (ext a) v false) = 2 * ∑ a : Fin N → Bool, g (ext a) := by
    rw [← Finset.sum_add_distrib]
    have h1 : ∀ a : Fin N → Bool, g (Function.update (ext a) v true) +
        g (Function.update (ext a) v false) = g (ext a) + g (ext (flipAt ⟨v, hv⟩ a)) := by
      intro a
      have e1 := ext_apply ⟨v, hv⟩ a
      have e2 : ext (flipAt ⟨v, hv⟩ a) = Function.update (ext a) v (!a ⟨v, hv⟩) :=
        ext_update ⟨v, hv⟩ a _
      rw [e2]
      cases ha : a ⟨v, hv⟩
      · have : Function.update (ext a) v false = ext a := by
          rw [← ha, ← e1]; exact Function.update_eq_self v _
        rw [this]; simp [add_comm]
      · have : Function.update (ext a) v true = ext a := by
          rw [← ha, ← e1]; exact Function.update_eq_self v _
        rw [this]; simp
    rw [Finset.sum_congr rfl (fun a _ => h1 a), Finset.sum_add_distrib]
    have h2 : ∑ a : Fin N → Bool, g (ext (flipAt ⟨v, hv⟩ a)) = ∑ a : Fin N → Bool, g (ext a) :=
      Finset.sum_bijective (flipAt ⟨v, hv⟩)
        (Function.Involutive.bijective (fun a => flipAt_flipAt _ a)) (by simp) (fun _ _ => rfl)
    rw [h2]; ring
  unfold mean
  rw [← add_div, key]
  ring

/-- 0/1 value of a Boolean. -/
def ind (b : Bool) : ℚ := if b then 1 else 0

@[simp] theorem ind_true : ind true = 1 := rfl
@[simp] theorem ind_false : ind false = 0 := rfl
theorem ind_nonneg (b : Bool) : 0 ≤ ind b := by cases b <;> simp
theorem ind_le_one (b : Bool) : ind b ≤ 1 := by cases b <;> simp
theorem ind_not (b : Bool) : ind (!b) = 1 - ind b := by cases b <;> simp
theorem ind_toNat (b : Bool) : ind b = (b.toNat : ℚ) := by cases b <;> simp

theorem mean_ind_not (N : Nat) (g : Asg → Bool) :
    mean N (fun x => ind (!g x)) = 1 - mean N (fun x => ind (g x)) := by
  simp only [ind_not, mean_sub, mean_const]

theorem DD.frac_eq_mean {m : Mgr} (N : Nat) {d : DD} (hwf : d.WF m) (h : ∀ v ∈ d.vars, v < N) :
    d.frac = mean N (fun x => ind (d.eval x)) := by
  induction d with
  | one => simp [DD.frac, DD.eval, mean_const]
  | node v t c e iht ihe =>
    obtain ⟨ht, he, htb, heb, _⟩ := hwf
    simp only [DD.vars, List.mem_cons, List.mem_append] at h
    rw [mean_split N _ v (h v (.inl rfl))]
    simp only [DD.eval, Function.update_self, if_true, htb.eval_update ht, heb.eval_update he]
    rw [DD.frac, iht ht (fun w hw => h w (.inr (.inl hw))),
      ihe he (fun w hw => h w (.inr (.inr hw)))]
    congr 2
    cases c
    · simp
    · simp only [if_true, Bool.true_xor, Bool.false_eq_true, if_false, mean_ind_not]

theorem Edge.frac_eq_mean {m : Mgr} (N : Nat) {a : Edge} (hwf : a.n.WF m)
    (h : ∀ v ∈ a.n.vars, v < N) : a.frac = mean N (fun x => ind (a.eval x)) := by
  obtain ⟨an, ad⟩ := a
  unfold Edge.frac Edge.eval
  cases an
  · simp [DD.frac_eq_mean N hwf h]
  · simp [DD.frac_eq_mean N hwf h, mean_ind_not]

variable {m : Mgr}

theorem BDD.frac_eq_mean (N : Nat) (f : BDD m) (h : ∀ v ∈ f.supportIndices, v < N) :
    f.edge.frac = mean N (fun x => ind (f.eval x)) :=
  Edge.frac_eq_mean N f.wf (fun v hv => h v (by simpa [supportIndices] using hv))

theorem exists_bound (l : List Nat) : ∃ N, ∀ v ∈ l, v < N := by
  refine ⟨l.foldr max 0 + 1, fun v hv => ?_⟩
  induction l with
  | nil => simp at hv
  | cons a l ih =>
    simp only [List.foldr_cons]
    rcases List.mem_cons.mp hv with rfl | hv
    · omega
    · have := ih hv; omega

/-- A common bound for the variables of finitely many functions. -/
theorem exists_fits (f : List (BDD m)) : ∃ N, Fits N f := by
  obtain ⟨N, hN⟩ := exists_bound (f.flatMap (·.supportIndices))
  exact ⟨N, fun b hb v hv => hN v (List.mem_flatMap.mpr ⟨b, hb, hv⟩)⟩

/-- The value at `x` only depends on the first `N` variables. -/
theorem ext_agree {N : Nat} (x : Asg) {v : Nat} (hv : v < N) :
    ext (fun i : Fin N => x i) v = x v := by simp [ext, hv]

theorem BDD.eval_ext {N : Nat} (f : BDD m) (h : ∀ v ∈ f.supportIndices, v < N) (x : Asg) :
    f.eval (ext (fun i : Fin N => x i)) = f.eval x :=
  BDD.eval_congr (fun v hv => ext_agree x (h v hv))

theorem bitsAt_ext {N : Nat} {f : List (BDD m)} (h : Fits N f) (x : Asg) :
    bitsAt f (ext (fun i : Fin N => x i)) = bitsAt f x := by
  unfold bitsAt
  apply List.map_congr_left
  intro b hb
  exact BDD.eval_ext b (h b hb) x

/-- The mean is the number of satisfying inputs over the number of inputs. -/
theorem mean_ind_count (N : Nat) (g : Asg → Bool) :
    mean N (fun x => ind (g x)) = (count N g : ℚ) / 2 ^ N := by
  unfold mean count ind
  congr 1
  rw [Finset.sum_ite]
  simp

theorem mean_ind_bounds (N : Nat) (g : Asg → Bool) :
    0 ≤ mean N (fun x => ind (g x)) ∧ mean N (fun x => ind (g x)) ≤ 1 := by
  constructor
  · have := mean_mono N (g := fun _ => 0) (h := fun x => ind (g x)) (fun x => ind_nonneg _)
    rwa [mean_const] at this
  · have := mean_mono N (h := fun _ => 1) (g := fun x => ind (g x)) (fun x => ind_le_one _)
    rwa [mean_const] at this

end Verif

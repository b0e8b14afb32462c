import Verif.Proofs.Operators
import Mathlib.Tactic.Linarith

/-!
# What the approximation operators compute, in terms of the function only
-/

namespace Verif

variable {m : Mgr}

theorem onSet_eq (N : Nat) (g : Asg → Bool) : onSet N g = mean N (fun x => ind (g x)) := rfl

theorem errRate_eq (N : Nat) (g h : Asg → Bool) :
    errRate N g h = mean N (fun x => ind (g x ^^ h x)) := by
  apply mean_congr
  intro x
  cases g x <;> cases h x <;> simp

theorem cofAt_gt {neg k : Bool} {v : Nat} {t e : DD} {j : Nat} (hj : v < j) (x : Asg) (b : Bool) :
    cofAt (Edge.eval ⟨neg, .node v t k e⟩) j x b =
      if x v then cofAt (Edge.eval ⟨neg, t⟩) j x b else cofAt (Edge.eval ⟨neg ^^ k, e⟩) j x b := by
  funext y
  have : Function.update (mix j x y) j b v = x v := by
    rw [Function.update_of_ne (by omega)]; simp [mix, hj]
  unfold cofAt
  rw [Edge.eval_node, this]
  split <;> rfl

theorem edge_eval_congr {a : Edge} {x y : Asg} (h : ∀ v ∈ a.n.vars, x v = y v) :
    a.eval x = a.eval y := by
  simp only [Edge.eval]; rw [DD.eval_congr h]

theorem cofAt_above {a : Edge} {j : Nat} (h : ∀ w ∈ a.n.vars, j < w) (x : Asg) (b : Bool) :
    cofAt a.eval j x b = a.eval := by
  funext y
  unfold cofAt
  apply edge_eval_congr
  intro w hw
  have := h w hw
  rw [Function.update_of_ne (by omega)]
  simp [mix]; omega

theorem node_vars_gt (hm : m.Mono) {v : Nat} {t e : DD} {k : Bool} (hwf : (DD.node v t k e).WF m)
    {j : Nat} (hj : j < v) : ∀ w ∈ (DD.node v t k e).vars, j < w := by
  intro w hw
  simp only [DD.vars, List.mem_cons, List.mem_append] at hw
  rcases hw with rfl | hw | hw
  · exact hj
  · have := DD.Below.vars_lt hm hwf.1 hwf.2.2.1 w hw; omega
  · have := DD.Below.vars_lt hm hwf.2.1 hwf.2.2.2.1 w hw; omega

theorem cofAt_self (hm : m.Mono) {neg k : Bool} {v : Nat} {t e : DD}
    (hwf : (DD.node v t k e).WF m) (x : Asg) (b : Bool) :
    cofAt (Edge.eval ⟨neg, .node v t k e⟩) v x b =
      if b then Edge.eval ⟨neg, t⟩ else Edge.eval ⟨neg ^^ k, e⟩ := by
  have ht := cofAt_above (a := ⟨neg, t⟩) (DD.Below.vars_lt hm hwf.1 hwf.2.2.1) x b
  have he := cofAt_above (a := ⟨neg ^^ k, e⟩) (DD.Below.vars_lt hm hwf.2.1 hwf.2.2.2.1) x b
  funext y
  have ht' := congrFun ht y
  have he' := congrFun he y
  unfold cofAt at ht' he' ⊢
  rw [Edge.eval_node, Function.update_self]
  cases b <;> simp [ht', he']

theorem depAt_gt {neg k : Bool} {v : Nat} {t e : DD} {j : Nat} (hj : v < j) (x : Asg) :
    DepAt (Edge.eval ⟨neg, .node v t k e⟩) j x ↔
      DepAt (if x v then Edge.eval ⟨neg, t⟩ else Edge.eval ⟨neg ^^ k, e⟩) j x := by
  unfold DepAt
  rw [cofAt_gt hj, cofAt_gt hj]
  split <;> rfl

theorem depAt_self (hm : m.Mono) {neg k : Bool} {v : Nat} {t e : DD}
    (hwf : (DD.node v t k e).WF m) (x : Asg) : DepAt (Edge.eval ⟨neg, .node v t k e⟩) v x := by
  unfold DepAt
  rw [cofAt_self hm hwf, cofAt_self hm hwf]
  simp only [if_true, Bool.false_eq_true, if_false]
  by_contra hcon
  push Not at hcon
  have := Edge.eq_of_eval (m := m) (a := ⟨neg, t⟩) (b := ⟨neg ^^ k, e⟩) hwf.1 hwf.2.1 hcon
  simp only [Edge.mk.injEq] at this
  apply hwf.2.2.2.2
  refine ⟨?_, this.2⟩
  have h1 := this.1
  revert h1
  cases neg <;> cases k <;> decide

theorem depAt_above {a : Edge} {j : Nat} (h : ∀ w ∈ a.n.vars, j < w) (x : Asg) :
    ¬ DepAt a.eval j x := by
  rintro ⟨y, hy⟩
  rw [cofAt_above h, cofAt_above h] at hy
  exact hy rfl

theorem hitAt_gt {μ : (Asg → Bool) → ℚ} {heavy : Bool} {neg k : Bool} {v : Nat} {t e : DD}
    {ls le : Nat} (hj : v < ls) (x : Asg) :
    HitAt μ heavy ls le (Edge.eval ⟨neg, .node v t k e⟩) x ↔
      HitAt μ heavy ls le (if x v then Edge.eval ⟨neg, t⟩ else Edge.eval ⟨neg ^^ k, e⟩) x := by
  unfold HitAt
  apply exists_congr
  intro j
  by_cases h1 : ls ≤ j
  · have hvj : v < j := by omega
    rw [depAt_gt hvj, cofAt_gt hvj, cofAt_gt hvj]
    cases x v <;> simp
  · simp [h1]

theorem removeSem_eq (hm : m.Mono) (N : Nat) (μ : (Asg → Bool) → ℚ) (c : Edge → ℚ)
    (hμ : ∀ a : Edge, a.n.WF m → (∀ v ∈ a.n.vars, v < N) → c a = μ a.eval)
    (ls le : Nat) (heavy subset : Bool) (d : DD) (hwf : d.WF m) (hN : ∀ v ∈ d.vars, v < N) :
    ∀ (neg : Bool) (x : Asg),
      (HitAt μ heavy ls le (Edge.eval ⟨neg, d⟩) x →
        removeSem c ls le heavy subset d neg x = !subset) ∧
      (¬ HitAt μ heavy ls le (Edge.eval ⟨neg, d⟩) x →
        removeSem c ls le heavy subset d neg x = Edge.eval ⟨neg, d⟩ x) := by
  -- a more general statement about ranges inside [ls,le] is needed for the children
  suffices H : ∀ (lo : Nat), ls ≤ lo → (lo = ls ∨ ∀ v ∈ d.vars, lo ≤ v) → ∀ (neg : Bool) (x : Asg),
      (HitAt μ heavy lo le (Edge.eval ⟨neg, d⟩) x →
        removeSem c ls le heavy subset d neg x = !subset) ∧
      (¬ HitAt μ heavy lo le (Edge.eval ⟨neg, d⟩) x →
        removeSem c ls le heavy subset d neg x = Edge.eval ⟨neg, d⟩ x) from
    H ls le_rfl (.inl rfl)
  induction d with
  | one =>
    intro lo _ _ neg x
    constructor
    · rintro ⟨j, _, _, hd, _⟩
      exact absurd hd (depAt_above (a := ⟨neg, .one⟩) (by simp [DD.vars]) x)
    · intro _; cases neg <;> rfl
  | node v t k e iht ihe =>
    intro lo hlo hor neg x
    have hNt : ∀ w ∈ t.vars, w < N := fun w hw => hN w (by simp [DD.vars, hw])
    have hNe : ∀ w ∈ e.vars, w < N := fun w hw => hN w (by simp [DD.vars, hw])
    have ct := hμ ⟨neg, t⟩ hwf.1 hNt
    have ce := hμ ⟨neg ^^ k, e⟩ hwf.2.1 hNe
    by_cases h1 : v < ls
    · have hl : lo = ls := by
        rcases hor with h | h
        · exact h
        · have := h v (by simp [DD.vars]); omega
      subst hl
      rw [hitAt_gt h1, removeSem, if_pos h1, Edge.eval_node]
      cases hx : x v
      · simpa using ihe hwf.2.1 hNe lo le_rfl (.inl rfl) (neg ^^ k) x
      · simpa using iht hwf.1 hNt lo le_rfl (.inl rfl) neg x
    · by_cases h2 : v ≤ le
      · have hvt := DD.Below.vars_lt hm hwf.1 hwf.2.2.1
        have hve := DD.Below.vars_lt hm hwf.2.1 hwf.2.2.2.1
        have hlov : lo ≤ v := by
          rcases hor with h | h
          · omega
          · exact h v (by simp [DD.vars])
        -- a hit is a hit at v or a later one in the child
        have hsplit : HitAt μ heavy lo le (Edge.eval ⟨neg, .node v t k e⟩) x ↔
            (x v = true ↔ (heavy = true ↔ c ⟨neg, t⟩ > c ⟨neg ^^ k, e⟩)) ∨
            HitAt μ heavy (v + 1) le
              (if x v then Edge.eval ⟨neg, t⟩ else Edge.eval ⟨neg ^^ k, e⟩) x := by
          rw [← hitAt_gt (v := v) (Nat.lt_succ_self v), ct, ce]
          constructor
          · rintro ⟨j, hj1, hj2, hd, hj⟩
            rcases Nat.lt_trichotomy j v with h | h | h
            · exact absurd hd (depAt_above (a := ⟨neg, .node v t k e⟩) (node_vars_gt hm hwf h) x)
            · subst h
              left
              rw [cofAt_self hm hwf, cofAt_self hm hwf] at hj
              simpa using hj
            · exact .inr ⟨j, h, hj2, hd, hj⟩
          · rintro (h | ⟨j, hj1, hj2, hd, hj⟩)
            · refine ⟨v, hlov, h2, depAt_self hm hwf x, ?_⟩
              rw [cofAt_self hm hwf, cofAt_self hm hwf]
              simpa using h
            · exact ⟨j, by omega, hj2, hd, hj⟩
        rw [hsplit, removeSem, if_neg h1, if_pos h2, Edge.eval_node]
        have it := iht hwf.1 hNt (v + 1) (by omega) (.inr hvt) neg x
        have ie := ihe hwf.2.1 hNe (v + 1) (by omega) (.inr hve) (neg ^^ k) x
        clear iht ihe hsplit ct ce hμ
        by_cases hc : c ⟨neg, t⟩ > c ⟨neg ^^ k, e⟩ <;> cases hx : x v <;> cases heavy <;>
          simp only [hc, decide_true, decide_false, if_true, if_false, Bool.false_eq_true,
            Bool.true_eq_false, iff_true, iff_false, not_true_eq_false,
            true_or, false_or, true_implies, false_implies, and_true] <;>
          first | exact it | exact ie
      · have hno : ¬ HitAt μ heavy lo le (Edge.eval ⟨neg, .node v t k e⟩) x := by
          rintro ⟨j, _, hj, hd, _⟩
          exact absurd hd (depAt_above (a := ⟨neg, .node v t k e⟩) (node_vars_gt hm hwf (by omega)) x)
        refine ⟨fun h => absurd h hno, fun _ => ?_⟩
        rw [removeSem, if_neg h1, if_neg h2]

theorem frac_onSet (N : Nat) (a : Edge) (hwf : a.n.WF m) (h : ∀ v ∈ a.n.vars, v < N) :
    a.frac = onSet N a.eval := Edge.frac_eq_mean N hwf h

/-! ### `count_solutions` as a weight -/

theorem firstVar_eq (hm : m.Mono) (tl : Nat) (a : Edge) (hwf : a.n.WF m) :
    firstVar tl a.eval = nodeLevel tl a.n := by
  obtain ⟨neg, d⟩ := a
  unfold firstVar
  cases d with
  | one =>
    rw [dif_neg]
    · rfl
    · rintro ⟨i, y, h⟩
      exact h rfl
  | node v t k e =>
    have hdep : ∃ y, Edge.eval ⟨neg, .node v t k e⟩ (Function.update y v true) ≠
        Edge.eval ⟨neg, .node v t k e⟩ (Function.update y v false) := by
      obtain ⟨y, hy⟩ := DD.depends hwf (v := v) (by simp [DD.vars])
      exact ⟨y, by simpa [Edge.eval] using hy⟩
    rw [dif_pos ⟨v, hdep⟩]
    classical
    rw [Nat.find_eq_iff]
    refine ⟨hdep, fun j hj => ?_⟩
    rintro ⟨y, hy⟩
    apply hy
    apply edge_eval_congr
    intro w hw
    have := node_vars_gt hm hwf hj w hw
    rw [Function.update_of_ne (by omega), Function.update_of_ne (by omega)]

/-- Number of solutions over the variables from the first one the function depends on. -/
noncomputable def solWeight (tl : Nat) (g : Asg → Bool) : ℚ :=
  onSet tl g * 2 ^ (tl - firstVar tl g)

theorem solPure_weight (hm : m.Mono) (f : BDD m) (h64 : terminalLevel [[f]] ≤ 2 ^ 64) (a : Edge)
    (hwf : a.n.WF m) (hv : ∀ v ∈ a.n.vars, v < terminalLevel [[f]]) :
    solPure f a = solWeight (terminalLevel [[f]]) a.eval := by
  unfold solPure solWeight
  rw [solutionPure_eq hm _ h64 a.n a.neg hwf hv, firstVar_eq hm _ a hwf, frac_onSet _ a hwf hv]

/-! ### A single level -/

theorem mix_upd_prefix (j : Nat) (x y y' : Asg) (b : Bool) :
    mix j (Function.update (mix j x y) j b) y' = mix j x y' := by
  funext v
  simp only [mix]
  split
  · rename_i h
    rw [Function.update_of_ne (by omega)]
    exact if_pos h
  · rfl

theorem cofAt_upd (g : Asg → Bool) (j : Nat) (x y : Asg) (b b' : Bool) :
    cofAt g j (Function.update (mix j x y) j b) b' = cofAt g j x b' := by
  funext z
  simp only [cofAt, mix_upd_prefix]

theorem depAt_upd (g : Asg → Bool) (j : Nat) (x y : Asg) (b : Bool) :
    DepAt g j (Function.update (mix j x y) j b) ↔ DepAt g j x := by
  simp only [DepAt, cofAt_upd]

/-- The child at level `j` that is removed. -/
def RemBranch (μ : (Asg → Bool) → ℚ) (heavy : Bool) (g : Asg → Bool) (j : Nat) (x : Asg)
    (b : Bool) : Prop :=
  b = true ↔ (heavy = true ↔ μ (cofAt g j x true) > μ (cofAt g j x false))

theorem hitAt_single (μ : (Asg → Bool) → ℚ) (heavy : Bool) (j : Nat) (g : Asg → Bool) (x : Asg) :
    HitAt μ heavy j j g x ↔ DepAt g j x ∧ RemBranch μ heavy g j x (x j) := by
  unfold HitAt RemBranch
  constructor
  · rintro ⟨i, h1, h2, h⟩
    have : i = j := by omega
    subst this
    exact h
  · intro h
    exact ⟨j, le_rfl, le_rfl, h⟩

theorem hitAt_upd (μ : (Asg → Bool) → ℚ) (heavy : Bool) (j : Nat) (g : Asg → Bool) (x y : Asg)
    (b : Bool) : HitAt μ heavy j j g (Function.update (mix j x y) j b) ↔
      DepAt g j x ∧ RemBranch μ heavy g j x b := by
  rw [hitAt_single, depAt_upd, RemBranch, RemBranch, cofAt_upd, cofAt_upd, Function.update_self]

theorem self_eq_upd (j : Nat) (x : Asg) : Function.update (mix j x x) j (x j) = x := by
  funext v
  by_cases h : v = j
  · subst h; simp
  · rw [Function.update_of_ne h]; simp [mix]

theorem cofAt_at (g : Asg → Bool) (j : Nat) (x : Asg) : cofAt g j x (x j) x = g x := by
  unfold cofAt; rw [self_eq_upd]

theorem exists_remBranch (μ : (Asg → Bool) → ℚ) (heavy : Bool) (g : Asg → Bool) (j : Nat)
    (x : Asg) : ∃ b, RemBranch μ heavy g j x b ∧ ¬ RemBranch μ heavy g j x (!b) := by
  unfold RemBranch
  by_cases h : (heavy = true ↔ μ (cofAt g j x true) > μ (cofAt g j x false))
  · exact ⟨true, by simp [h], by simp [h]⟩
  · exact ⟨false, by simp [h], by simp [h]⟩

/-- What an operator with the `HitAt` specification does to the two cofactors. -/
theorem single_cof {μ : (Asg → Bool) → ℚ} {heavy fill : Bool} {j : Nat} {g r : Asg → Bool}
    (hr : ∀ x, (HitAt μ heavy j j g x → r x = fill) ∧ (¬ HitAt μ heavy j j g x → r x = g x))
    (x : Asg) (hd : DepAt g j x) (b : Bool) (hb : RemBranch μ heavy g j x b)
    (hnb : ¬ RemBranch μ heavy g j x (!b)) :
    (∀ y, cofAt r j x b y = fill) ∧ cofAt r j x (!b) = cofAt g j x (!b) := by
  constructor
  · intro y
    exact (hr _).1 ((hitAt_upd μ heavy j g x y b).mpr ⟨hd, hb⟩)
  · funext y
    exact (hr _).2 (fun h => hnb ((hitAt_upd μ heavy j g x y (!b)).mp h).2)

theorem single_cof_none {μ : (Asg → Bool) → ℚ} {heavy fill : Bool} {j : Nat} {g r : Asg → Bool}
    (hr : ∀ x, (HitAt μ heavy j j g x → r x = fill) ∧ (¬ HitAt μ heavy j j g x → r x = g x))
    (x : Asg) (hd : ¬ DepAt g j x) (b : Bool) : cofAt r j x b = cofAt g j x b := by
  funext y
  exact (hr _).2 (fun h => hd ((hitAt_upd μ heavy j g x y b).mp h).1)

/-- A function of the first `N` variables with empty ON-set is zero. -/
theorem onSet_zero {N : Nat} {g : Asg → Bool}
    (hg : ∀ x y : Asg, (∀ v < N, x v = y v) → g x = g y) (h : onSet N g ≤ 0) (x : Asg) :
    g x = false := by
  by_contra hc
  have hx : g x = true := by simpa using hc
  have := mean_lt N (g := fun _ => 0) (h := fun x => ind (g x)) (fun _ => ind_nonneg _)
    (fun i => x i) (by
      have : g (ext fun i : Fin N => x i) = g x := hg _ _ (fun v hv => ext_agree x hv)
      rw [this, hx]; simp)
  rw [mean_const, ← onSet_eq] at this
  linarith

theorem onSet_one {N : Nat} {g : Asg → Bool}
    (hg : ∀ x y : Asg, (∀ v < N, x v = y v) → g x = g y) (h : 1 ≤ onSet N g) (x : Asg) :
    g x = true := by
  by_contra hc
  have hx : g x = false := by simpa using hc
  have := mean_lt N (g := fun x => ind (g x)) (h := fun _ => 1) (fun _ => ind_le_one _)
    (fun i => x i) (by
      have : g (ext fun i : Fin N => x i) = g x := hg _ _ (fun v hv => ext_agree x hv)
      rw [this, hx]; simp)
  rw [mean_const, ← onSet_eq] at this
  linarith

theorem onSet_const (N : Nat) (b : Bool) : onSet N (fun _ => b) = ind b := by
  rw [onSet_eq, mean_const]

theorem onSet_bounds (N : Nat) (g : Asg → Bool) : 0 ≤ onSet N g ∧ onSet N g ≤ 1 := by
  rw [onSet_eq]; exact mean_ind_bounds N g

theorem cofAt_fits {N : Nat} {g : Asg → Bool}
    (hg : ∀ x y : Asg, (∀ v < N, x v = y v) → g x = g y) (j : Nat) (x : Asg) (b : Bool) :
    ∀ y z : Asg, (∀ v < N, y v = z v) → cofAt g j x b y = cofAt g j x b z := by
  intro y z h
  unfold cofAt
  apply hg
  intro v hv
  by_cases hvj : v = j
  · subst hvj; simp
  · rw [Function.update_of_ne hvj, Function.update_of_ne hvj]
    simp only [mix]
    split
    · rfl
    · exact h v hv

theorem BDD.fits_congr {N : Nat} {f : BDD m} (h : Fits N [f]) :
    ∀ x y : Asg, (∀ v < N, x v = y v) → f.eval x = f.eval y :=
  fun _ _ hxy => BDD.eval_congr (fun v hv => hxy v (h f (by simp) v hv))

/-! ### Tower rule for the mean -/

theorem mix_zero (x y : Asg) : mix 0 x y = y := by funext v; simp [mix]

theorem mix_mix (j : Nat) (x y z : Asg) : mix j (mix j x y) z = mix j x z := by
  funext v; simp only [mix]; split <;> rfl

theorem mean_tower (N l : Nat) (F : Asg → ℚ) :
    mean N F = mean N (fun x => mean N (fun y => F (mix l x y))) := by
  induction l with
  | zero => simp only [mix_zero, mean_const]
  | succ l ih =>
    rw [ih]
    by_cases hl : l < N
    · rw [mean_split N (fun x => mean N (fun y => F (mix (l + 1) x y))) l hl]
      have h : ∀ b x y, mix (l + 1) (Function.update x l b) y = mix l x (Function.update y l b) := by
        intro b x y
        funext v
        simp only [mix, Function.update]
        rcases Nat.lt_trichotomy v l with h | h | h
        · simp [h, Nat.lt_succ_of_lt h, Nat.ne_of_lt h]
        · subst h; simp
        · have : ¬ v < l := by omega
          have h2 : ¬ v < l + 1 := by omega
          have h3 : v ≠ l := by omega
          simp [this, h2, h3]
      simp only [h]
      rw [← mean_add]
      have hdiv : ∀ q : Asg → ℚ, mean N q / 2 = mean N (fun x => q x / 2) := by
        intro q
        have := mean_mul_right N (1 / 2) q
        simp only [div_eq_mul_inv, one_mul] at this ⊢
        exact this.symm
      rw [hdiv]
      apply mean_congr
      intro x
      rw [← mean_split N (fun y => F (mix l x y)) l hl]
    · unfold mean
      congr 1
      apply Finset.sum_congr rfl
      intro a _
      change (∑ b : Fin N → Bool, F (mix l (ext a) (ext b))) / 2 ^ N =
        (∑ b : Fin N → Bool, F (mix (l + 1) (ext a) (ext b))) / 2 ^ N
      congr 1
      apply Finset.sum_congr rfl
      intro b _
      congr 1
      funext v
      simp only [mix, ext]
      by_cases h1 : v < l
      · simp [h1, Nat.lt_succ_of_lt h1]
      · by_cases h2 : v < l + 1
        · have : ¬ v < N := by omega
          simp [h1, h2, this]
        · simp [h1, h2]

/-- Mean over the variables from `j` on, split at `j`. -/
theorem mean_mix_split (N j : Nat) (hj : j < N) (F : Asg → ℚ) (x : Asg) :
    mean N (fun y => F (mix j x y)) =
      (mean N (fun y => F (Function.update (mix j x y) j true)) +
       mean N (fun y => F (Function.update (mix j x y) j false))) / 2 := by
  rw [mean_split N _ j hj]
  have h : ∀ b y, mix j x (Function.update y j b) = Function.update (mix j x y) j b := by
    intro b y
    funext v
    simp only [mix, Function.update]
    by_cases hv : v = j
    · subst hv; simp
    · simp [hv]
  simp only [h]

/-! ### `round_bdd` -/

theorem roundSem_eq (hm : m.Mono) (N l : Nat) (d : DD) (hwf : d.WF m) (hN : ∀ v ∈ d.vars, v < N) :
    ∀ (neg : Bool) (x : Asg), roundSem Edge.frac l d neg x =
      decide (onSet N (fun y => Edge.eval ⟨neg, d⟩ (mix l x y)) > 1 / 2) := by
  induction d with
  | one =>
    intro neg x
    have : onSet N (fun y => Edge.eval ⟨neg, .one⟩ (mix l x y)) = ind (!neg) := by
      rw [onSet_eq]
      have : ∀ y, ind (Edge.eval ⟨neg, .one⟩ (mix l x y)) = ind (!neg) := fun y => by
        cases neg <;> rfl
      simp only [this, mean_const]
    rw [this, roundSem]
    cases neg <;> norm_num
  | node v t k e iht ihe =>
    intro neg x
    rw [roundSem]
    by_cases h1 : v < l
    · rw [if_pos h1, iht hwf.1 (fun w hw => hN w (by simp [DD.vars, hw])),
        ihe hwf.2.1 (fun w hw => hN w (by simp [DD.vars, hw]))]
      have : ∀ y, mix l x y v = x v := fun y => by simp [mix, h1]
      simp only [Edge.eval_node, this]
      cases x v <;> simp
    · rw [if_neg h1, frac_onSet (m := m) N _ hwf hN]
      congr 2
      have : (fun y => Edge.eval ⟨neg, .node v t k e⟩ (mix l x y)) =
          Edge.eval ⟨neg, .node v t k e⟩ := by
        funext y
        apply edge_eval_congr
        intro w hw
        have : v ≤ w := by
          rcases Nat.eq_zero_or_pos v with h | h
          · omega
          · have := node_vars_gt hm hwf (j := v - 1) (by omega) w hw; omega
        simp [mix]; omega
      rw [this]

/-! ### `round_best` at a single level -/

/-- The value chosen by `round_best` at a node with the given ON-set sizes of the children. -/
def bestChoice (tc ec : ℚ) (xj fx : Bool) : Bool :=
  if tc < ec ∧ tc < 1 - ec then (if xj then false else fx)
  else if ec < tc ∧ ec < 1 - tc then (if xj then fx else false)
  else if tc > ec ∧ tc > 1 - ec then (if xj then true else fx)
  else if ec > tc ∧ ec > 1 - tc then (if xj then fx else true)
  else if xj then decide (tc > 1 / 2) else decide (ec > 1 / 2)

theorem roundBestSem_eq (hm : m.Mono) (N j : Nat) (d : DD) (hwf : d.WF m)
    (hN : ∀ v ∈ d.vars, v < N) : ∀ (neg : Bool) (x : Asg),
    (DepAt (Edge.eval ⟨neg, d⟩) j x → roundBestSem Edge.frac j j d neg x =
      bestChoice (onSet N (cofAt (Edge.eval ⟨neg, d⟩) j x true))
        (onSet N (cofAt (Edge.eval ⟨neg, d⟩) j x false)) (x j) (Edge.eval ⟨neg, d⟩ x)) ∧
    (¬ DepAt (Edge.eval ⟨neg, d⟩) j x →
      roundBestSem Edge.frac j j d neg x = Edge.eval ⟨neg, d⟩ x) := by
  induction d with
  | one =>
    intro neg x
    constructor
    · intro hd
      exact absurd hd (depAt_above (a := ⟨neg, .one⟩) (by simp [DD.vars]) x)
    · intro _; cases neg <;> rfl
  | node v t k e iht ihe =>
    intro neg x
    have hNt : ∀ w ∈ t.vars, w < N := fun w hw => hN w (by simp [DD.vars, hw])
    have hNe : ∀ w ∈ e.vars, w < N := fun w hw => hN w (by simp [DD.vars, hw])
    rcases Nat.lt_trichotomy v j with h | h | h
    · rw [depAt_gt h, cofAt_gt h, cofAt_gt h, Edge.eval_node, roundBestSem, if_pos h]
      cases hx : x v
      · simpa using ihe hwf.2.1 hNe (neg ^^ k) x
      · simpa using iht hwf.1 hNt neg x
    · subst h
      have hvt := DD.Below.vars_lt hm hwf.1 hwf.2.2.1
      have hve := DD.Below.vars_lt hm hwf.2.1 hwf.2.2.2.1
      refine ⟨fun _ => ?_, fun hn => absurd (depAt_self hm hwf x) hn⟩
      rw [cofAt_self hm hwf, cofAt_self hm hwf, roundBestSem, if_neg (lt_irrefl _), if_pos le_rfl,
        roundBestSem_untouched _ _ _ t (fun w hw => by have := hvt w hw; omega),
        roundBestSem_untouched _ _ _ e (fun w hw => by have := hve w hw; omega), Edge.eval_node,
        frac_onSet (m := m) N _ hwf.1 hNt, frac_onSet (m := m) N _ hwf.2.1 hNe]
      simp only [if_true, Bool.false_eq_true, if_false, bestChoice]
      cases hx : x v <;> simp
    · have hno : ¬ DepAt (Edge.eval ⟨neg, .node v t k e⟩) j x :=
        depAt_above (a := ⟨neg, .node v t k e⟩) (node_vars_gt hm hwf h) x
      refine ⟨fun hd => absurd hd hno, fun _ => ?_⟩
      rw [roundBestSem, if_neg (by omega), if_neg (by omega)]

end Verif

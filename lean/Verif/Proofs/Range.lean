import Verif.Proofs.OperatorBest
import Verif.Proofs.Support
import Mathlib.Order.Interval.Finset.Nat

/-!
# The child operators over a range of levels
-/

namespace Verif

variable {m : Mgr}

theorem vars_ne_of_below {d : DD} {v : Nat} (hwf : d.WF m) (hb : d.Below m (m.lvl v)) : ∀ w ∈ d.vars, w ≠ v := by
  intro w hw e
  have := hb.vars hwf w hw
  rw [e] at this
  exact lt_irrefl _ this

/-- Fraction of the inputs at which the function has the value `s`. -/
def valSet (N : Nat) (s : Bool) (g : Asg → Bool) : ℚ := mean N (fun x => ind (g x == s))

theorem valSet_true (N : Nat) (g : Asg → Bool) : valSet N true g = onSet N g := by
  rw [onSet_eq]
  exact mean_congr _ (fun x => by simp)

theorem valSet_false (N : Nat) (g : Asg → Bool) : valSet N false g = 1 - onSet N g := by
  rw [onSet_eq, ← mean_ind_not]
  exact mean_congr _ (fun x => by simp)

theorem valSet_nonneg (N : Nat) (s : Bool) (g : Asg → Bool) : 0 ≤ valSet N s g := (mean_ind_bounds N _).1

theorem valSet_const (N : Nat) (s b : Bool) : valSet N s (fun _ => b) = ind (b == s) := mean_const _ _

/-- The fraction of a node is the average of those of its children. -/
theorem valSet_branch (N : Nat) (s : Bool) {v : Nat} (hv : v < N) {p q : Asg → Bool}
    (hp : ∀ x b, p (Function.update x v b) = p x) (hq : ∀ x b, q (Function.update x v b) = q x) :
    valSet N s (fun x => if x v then p x else q x) = (valSet N s p + valSet N s q) / 2 := by
  unfold valSet
  rw [mean_split N _ v hv]
  congr 2
  · exact mean_congr _ (fun x => by simp [hp])
  · exact mean_congr _ (fun x => by simp [hq])

theorem edge_update {a : Edge} {v : Nat} (h : ∀ w ∈ a.n.vars, w ≠ v) (x : Asg) (b : Bool) :
    a.eval (Function.update x v b) = a.eval x :=
  edge_eval_congr (fun w hw => Function.update_of_ne (h w hw) _ _)

theorem removeSem_update {c : Edge → ℚ} {ls le : Nat} {heavy subset : Bool} {d : DD} {neg : Bool} {v : Nat}
    (h : ∀ w ∈ d.vars, w ≠ v) (x : Asg) (b : Bool) :
    removeSem c ls le heavy subset d neg (Function.update x v b) = removeSem c ls le heavy subset d neg x :=
  removeSem_congr _ _ _ _ _ _ _ (fun w hw => Function.update_of_ne (h w hw) _ _)

/-- Removing the child with fewer inputs of value `s`, at every level, keeps at least half of these inputs per
variable in the range. -/
theorem removeSem_keeps (N ls le : Nat) (s : Bool) (d : DD) (hwf : d.WF m) (hN : ∀ v ∈ d.vars, v < N) :
    ∀ (neg : Bool) (S : Finset Nat), (∀ v ∈ d.vars, ls ≤ v → v ≤ le → v ∈ S) →
      valSet N s (Edge.eval ⟨neg, d⟩) / 2 ^ S.card ≤ valSet N s (removeSem Edge.frac ls le (!s) s d neg) := by
  have two : ∀ k : Nat, (1 : ℚ) ≤ 2 ^ k := fun k => one_le_pow₀ (by norm_num)
  induction d with
  | one =>
    intro neg S _
    have : removeSem Edge.frac ls le (!s) s .one neg = Edge.eval ⟨neg, .one⟩ := by
      funext x
      cases neg <;> rfl
    rw [this]
    exact div_le_self (valSet_nonneg _ _ _) (two _)
  | node v t k e iht ihe =>
    intro neg S hS
    have hNt : ∀ w ∈ t.vars, w < N := fun w hw => hN w (by simp [DD.vars, hw])
    have hNe : ∀ w ∈ e.vars, w < N := fun w hw => hN w (by simp [DD.vars, hw])
    have hvN : v < N := hN v (by simp [DD.vars])
    have nt := vars_ne_of_below hwf.1 hwf.2.2.1
    have ne := vars_ne_of_below hwf.2.1 hwf.2.2.2.1
    have hev : valSet N s (Edge.eval ⟨neg, .node v t k e⟩) =
        (valSet N s (Edge.eval ⟨neg, t⟩) + valSet N s (Edge.eval ⟨neg ^^ k, e⟩)) / 2 := by
      rw [← valSet_branch N s hvN (edge_update (a := ⟨neg, t⟩) nt) (edge_update (a := ⟨neg ^^ k, e⟩) ne)]
      congr 1
      funext x
      rw [Edge.eval_node]
    by_cases h1 : v < ls
    · have it := iht hwf.1 hNt neg S (fun w hw => hS w (by simp [DD.vars, hw]))
      have ie := ihe hwf.2.1 hNe (neg ^^ k) S (fun w hw => hS w (by simp [DD.vars, hw]))
      have : removeSem Edge.frac ls le (!s) s (.node v t k e) neg = fun x =>
          if x v then removeSem Edge.frac ls le (!s) s t neg x else removeSem Edge.frac ls le (!s) s e (neg ^^ k) x := by
        funext x
        rw [removeSem, if_pos h1]
      rw [this, valSet_branch N s hvN (removeSem_update nt) (removeSem_update ne), hev]
      have : (valSet N s (Edge.eval ⟨neg, t⟩) + valSet N s (Edge.eval ⟨neg ^^ k, e⟩)) / 2 / 2 ^ S.card =
          (valSet N s (Edge.eval ⟨neg, t⟩) / 2 ^ S.card + valSet N s (Edge.eval ⟨neg ^^ k, e⟩) / 2 ^ S.card) / 2 := by
        ring
      rw [this]
      linarith
    · by_cases h2 : v ≤ le
      · have hvS : v ∈ S := hS v (by simp [DD.vars]) (by omega) h2
        have hcard : S.card = (S.erase v).card + 1 := (Finset.card_erase_add_one hvS).symm
        have it := iht hwf.1 hNt neg (S.erase v) (fun w hw h3 h4 =>
          Finset.mem_erase.mpr ⟨nt w hw, hS w (by simp [DD.vars, hw]) h3 h4⟩)
        have ie := ihe hwf.2.1 hNe (neg ^^ k) (S.erase v) (fun w hw h3 h4 =>
          Finset.mem_erase.mpr ⟨ne w hw, hS w (by simp [DD.vars, hw]) h3 h4⟩)
        have ct := frac_onSet N ⟨neg, t⟩ hwf.1 hNt
        have ce := frac_onSet N ⟨neg ^^ k, e⟩ hwf.2.1 hNe
        rw [hcard, pow_succ]
        have hpos : (0 : ℚ) < 2 ^ (S.erase v).card := by positivity
        have half : ∀ a b : ℚ, a ≤ b → (a + b) / 2 / (2 ^ (S.erase v).card * 2) ≤ b / 2 ^ (S.erase v).card / 2 := by
          intro a b hab
          have : (a + b) / 2 / (2 ^ (S.erase v).card * 2) = (a + b) / 2 / 2 ^ (S.erase v).card / 2 := by
            field_simp
          rw [this]
          have : (a + b) / 2 ≤ b := by linarith
          have := div_le_div_of_nonneg_right this hpos.le
          linarith
        have half' : ∀ a b : ℚ, b ≤ a → (a + b) / 2 / (2 ^ (S.erase v).card * 2) ≤ a / 2 ^ (S.erase v).card / 2 := by
          intro a b hab
          rw [add_comm]
          exact half b a hab
        have hfill : valSet N s (fun _ => !s) = 0 := by
          rw [valSet_const]
          cases s <;> rfl
        by_cases hc : (!s) = decide (Edge.frac ⟨neg, t⟩ > Edge.frac ⟨neg ^^ k, e⟩)
        · have : removeSem Edge.frac ls le (!s) s (.node v t k e) neg = fun x =>
              if x v then (!s) else removeSem Edge.frac ls le (!s) s e (neg ^^ k) x := by
            funext x
            rw [removeSem, if_neg h1, if_pos h2, if_pos hc]
          rw [this, valSet_branch N s hvN (p := fun _ => !s) (fun _ _ => rfl) (removeSem_update ne), hfill, hev, zero_add]
          refine le_trans (half _ _ ?_) (div_le_div_of_nonneg_right ie (by norm_num))
          rw [ct, ce] at hc
          cases s
          · have := of_decide_eq_true hc.symm
            rw [valSet_false, valSet_false]
            linarith
          · have := of_decide_eq_false hc.symm
            rw [valSet_true, valSet_true]
            linarith
        · have : removeSem Edge.frac ls le (!s) s (.node v t k e) neg = fun x =>
              if x v then removeSem Edge.frac ls le (!s) s t neg x else (!s) := by
            funext x
            rw [removeSem, if_neg h1, if_pos h2, if_neg hc]
          rw [this, valSet_branch N s hvN (q := fun _ => !s) (removeSem_update nt) (fun _ _ => rfl), hfill, hev, add_zero]
          refine le_trans (half' _ _ ?_) (div_le_div_of_nonneg_right it (by norm_num))
          rw [ct, ce] at hc
          cases s
          · have : ¬ onSet N (Edge.eval ⟨neg, t⟩) > onSet N (Edge.eval ⟨neg ^^ k, e⟩) := fun h => hc (by simp [h])
            rw [valSet_false, valSet_false]
            linarith
          · have : onSet N (Edge.eval ⟨neg, t⟩) > onSet N (Edge.eval ⟨neg ^^ k, e⟩) := by
              by_contra h
              exact hc (by simp [h])
            rw [valSet_true, valSet_true]
            linarith
      · have : removeSem Edge.frac ls le (!s) s (.node v t k e) neg = Edge.eval ⟨neg, .node v t k e⟩ := by
          funext x
          rw [removeSem, if_neg h1, if_neg h2]
        rw [this]
        exact div_le_self (valSet_nonneg _ _ _) (two _)

/-- With all variables in the range the result is one path to a terminal; every other path leads to the filling. -/
theorem removeSem_chain (c : Edge → ℚ) (ls le : Nat) (heavy subset : Bool) (d : DD) (hwf : d.WF m)
    (hr : ∀ v ∈ d.vars, ls ≤ v ∧ v ≤ le) : ∀ neg : Bool,
      ∃ (lits : List (Nat × Bool)) (z : Bool), (lits.map Prod.fst).Nodup ∧ (∀ p ∈ lits, p.1 ∈ d.vars) ∧
        ∀ x : Asg, removeSem c ls le heavy subset d neg x = if ∀ p ∈ lits, x p.1 = p.2 then z else !subset := by
  induction d with
  | one => exact fun neg => ⟨[], !neg, by simp, by simp, fun x => by simp [removeSem]⟩
  | node v t k e iht ihe =>
    intro neg
    obtain ⟨h1, h2⟩ := hr v (by simp [DD.vars])
    have ext : ∀ (b : Bool) (u : DD) (lits : List (Nat × Bool)) (z : Bool), u.WF m → u.Below m (m.lvl v) →
        (∀ w ∈ u.vars, w ∈ (DD.node v t k e).vars) → (lits.map Prod.fst).Nodup → (∀ p ∈ lits, p.1 ∈ u.vars) →
        (((v, b) :: lits).map Prod.fst).Nodup ∧ (∀ p ∈ (v, b) :: lits, p.1 ∈ (DD.node v t k e).vars) ∧
        ∀ x : Asg, (if ∀ p ∈ (v, b) :: lits, x p.1 = p.2 then z else !subset) =
          if x v = b then (if ∀ p ∈ lits, x p.1 = p.2 then z else !subset) else !subset := by
      intro b u lits z hu hb hsub hnd hmem
      refine ⟨?_, ?_, fun x => ?_⟩
      · rw [List.map_cons, List.nodup_cons]
        refine ⟨fun h => ?_, hnd⟩
        obtain ⟨p, hp, he⟩ := List.mem_map.mp h
        exact vars_ne_of_below hu hb _ (hmem p hp) he
      · intro p hp
        rcases List.mem_cons.mp hp with rfl | hp
        · simp [DD.vars]
        · exact hsub _ (hmem p hp)
      · have hcons : (∀ p ∈ (v, b) :: lits, x p.1 = p.2) ↔ x v = b ∧ ∀ p ∈ lits, x p.1 = p.2 := by simp
        by_cases hx : x v = b
        · rw [if_pos hx]
          by_cases hl : ∀ p ∈ lits, x p.1 = p.2
          · rw [if_pos hl, if_pos (hcons.mpr ⟨hx, hl⟩)]
          · rw [if_neg hl, if_neg (fun h => hl (hcons.mp h).2)]
        · rw [if_neg hx, if_neg (fun h => hx (hcons.mp h).1)]
    by_cases hc : heavy = decide (c ⟨neg, t⟩ > c ⟨neg ^^ k, e⟩)
    · obtain ⟨lits, z, a1, a2, a3⟩ := ihe hwf.2.1 (fun w hw => hr w (by simp [DD.vars, hw])) (neg ^^ k)
      obtain ⟨b1, b2, b3⟩ := ext false e lits z hwf.2.1 hwf.2.2.2.1 (fun w hw => by simp [DD.vars, hw]) a1 a2
      refine ⟨(v, false) :: lits, z, b1, b2, fun x => ?_⟩
      rw [b3, ← a3, removeSem, if_neg (by omega), if_pos h2, if_pos hc]
      cases x v <;> simp
    · obtain ⟨lits, z, a1, a2, a3⟩ := iht hwf.1 (fun w hw => hr w (by simp [DD.vars, hw])) neg
      obtain ⟨b1, b2, b3⟩ := ext true t lits z hwf.1 hwf.2.2.1 (fun w hw => by simp [DD.vars, hw]) a1 a2
      refine ⟨(v, true) :: lits, z, b1, b2, fun x => ?_⟩
      rw [b3, ← a3, removeSem, if_neg (by omega), if_pos h2, if_neg hc]

/-- Below given values of the variables before the range there is a handle with variables from the range on only. -/
theorem removeSem_residual (hm : m.Mono) (c : Edge → ℚ) (ls le : Nat) (heavy subset : Bool) (d : DD) (hwf : d.WF m)
    (x : Asg) : ∀ neg : Bool, ∃ (d' : DD) (neg' : Bool), d'.WF m ∧ (∀ v ∈ d'.vars, v ∈ d.vars ∧ ls ≤ v) ∧
      (∀ y, Edge.eval ⟨neg, d⟩ (mix ls x y) = Edge.eval ⟨neg', d'⟩ y) ∧
      ∀ y, removeSem c ls le heavy subset d neg (mix ls x y) = removeSem c ls le heavy subset d' neg' y := by
  induction d with
  | one => exact fun neg => ⟨.one, neg, hwf, by simp [DD.vars], fun y => rfl, fun y => rfl⟩
  | node v t k e iht ihe =>
    intro neg
    by_cases h1 : v < ls
    · have hx : ∀ y, mix ls x y v = x v := fun y => by simp [mix, h1]
      cases hv : x v
      · obtain ⟨d', neg', a1, a2, a3, a4⟩ := ihe hwf.2.1 (neg ^^ k)
        refine ⟨d', neg', a1, fun w hw => ⟨by simp [DD.vars, (a2 w hw).1], (a2 w hw).2⟩, fun y => ?_, fun y => ?_⟩
        · rw [← a3, Edge.eval_node, hx, hv]
          rfl
        · rw [← a4, removeSem, if_pos h1, hx, hv]
          rfl
      · obtain ⟨d', neg', a1, a2, a3, a4⟩ := iht hwf.1 neg
        refine ⟨d', neg', a1, fun w hw => ⟨by simp [DD.vars, (a2 w hw).1], (a2 w hw).2⟩, fun y => ?_, fun y => ?_⟩
        · rw [← a3, Edge.eval_node, hx, hv]
          rfl
        · rw [← a4, removeSem, if_pos h1, hx, hv]
          rfl
    · have hge : ∀ w ∈ (DD.node v t k e).vars, ls ≤ w := by
        intro w hw
        rcases Nat.eq_zero_or_pos v with rfl | hv
        · omega
        · have := node_vars_gt hm hwf (show v - 1 < v by omega) w hw
          omega
      have hagree : ∀ y, ∀ w ∈ (DD.node v t k e).vars, mix ls x y w = y w := fun y w hw => by
        have := hge w hw
        rw [mix, if_neg (by omega)]
      exact ⟨.node v t k e, neg, hwf, fun w hw => ⟨hw, hge w hw⟩, fun y => edge_eval_congr (hagree y),
        fun y => removeSem_congr _ _ _ _ _ _ _ (hagree y)⟩

/-- A function that has the value `s` somewhere still has it after removing the children with fewer such inputs. -/
theorem removeSem_alive (ls le : Nat) (s : Bool) (d : DD) (hwf : d.WF m) (neg : Bool) :
    (∃ x, removeSem Edge.frac ls le (!s) s d neg x = s) ↔ ∃ x, Edge.eval ⟨neg, d⟩ x = s := by
  constructor
  · rintro ⟨x, hx⟩
    refine ⟨x, ?_⟩
    cases s
    · by_contra h
      rw [removeSem_superset _ _ _ _ _ _ _ (by simpa using h)] at hx
      cases hx
    · exact removeSem_subset _ _ _ _ _ _ _ hx
  · rintro ⟨x, hx⟩
    by_contra hno
    push Not at hno
    obtain ⟨N, hN⟩ : ∃ N, ∀ v ∈ d.vars, v < N :=
      ⟨d.vars.sum + 1, fun v hv => Nat.lt_succ_of_le (List.single_le_sum (by simp) v hv)⟩
    have h := removeSem_keeps N ls le s d hwf hN neg (Finset.Icc ls le) (fun v _ h1 h2 => Finset.mem_Icc.mpr ⟨h1, h2⟩)
    have h0 : valSet N s (removeSem Edge.frac ls le (!s) s d neg) = 0 := by
      rw [valSet, ← mean_const N 0]
      exact mean_congr _ (fun y => by rw [beq_eq_false_iff_ne.mpr (hno y)]; rfl)
    rw [h0] at h
    have hpos : (0 : ℚ) < valSet N s (Edge.eval ⟨neg, d⟩) := by
      rw [← mean_const N 0]
      refine mean_lt N (fun y => ind_nonneg _) (fun i => x i) ?_
      have : Edge.eval ⟨neg, d⟩ (ext fun i : Fin N => x i) = s := by
        rw [← hx]
        exact edge_eval_congr (fun v hv => ext_agree x (hN v hv))
      rw [this]
      simp
    have := div_pos hpos (show (0 : ℚ) < 2 ^ (Finset.Icc ls le).card by positivity)
    linarith

/-- One path with `k` variables is taken by one input in `2 ^ k`. -/
theorem onSet_lits (N : Nat) (lits : List (Nat × Bool)) (hnd : (lits.map Prod.fst).Nodup)
    (hN : ∀ p ∈ lits, p.1 < N) : onSet N (fun y => decide (∀ p ∈ lits, y p.1 = p.2)) = 1 / 2 ^ lits.length := by
  rw [← valSet_true]
  induction lits with
  | nil => simp [valSet, mean_const]
  | cons p ps ih =>
    rw [List.map_cons, List.nodup_cons] at hnd
    have ihp := ih hnd.2 (fun q hq => hN q (List.mem_cons_of_mem _ hq))
    have hup : ∀ (x : Asg) (b : Bool), decide (∀ q ∈ ps, Function.update x p.1 b q.1 = q.2) =
        decide (∀ q ∈ ps, x q.1 = q.2) := fun x b => by
      apply decide_eq_decide.mpr
      refine forall₂_congr fun q hq => ?_
      rw [Function.update_of_ne (fun h => hnd.1 (List.mem_map.mpr ⟨q, hq, h⟩))]
    have e : (fun y : Asg => decide (∀ q ∈ p :: ps, y q.1 = q.2)) = fun y => if y p.1 then
        (if p.2 then decide (∀ q ∈ ps, y q.1 = q.2) else false) else
        (if p.2 then false else decide (∀ q ∈ ps, y q.1 = q.2)) := by
      funext y
      have : (∀ q ∈ p :: ps, y q.1 = q.2) ↔ y p.1 = p.2 ∧ ∀ q ∈ ps, y q.1 = q.2 := by simp
      rw [decide_eq_decide.mpr this, Bool.decide_and]
      cases y p.1 <;> cases p.2 <;> simp
    rw [e, valSet_branch N true (hN p (by simp)) (fun x b => by rw [hup]) (fun x b => by rw [hup])]
    have z : valSet N true (fun _ => false) = 0 := valSet_const _ _ _
    rw [List.length_cons, pow_succ]
    cases p.2
    · simp only [Bool.false_eq_true, if_false]
      rw [ihp, z, zero_add, div_div]
    · simp only [if_true]
      rw [ihp, z, add_zero, div_div]

theorem lits_length {ls N : Nat} {lits : List (Nat × Bool)} (h1 : (lits.map Prod.fst).Nodup)
    (h2 : ∀ p ∈ lits, ls ≤ p.1 ∧ p.1 < N) : lits.length ≤ N - ls := by
  have := Finset.card_le_card (s := (lits.map Prod.fst).toFinset) (t := Finset.Ico ls N) (fun v hv => by
    rw [List.mem_toFinset, List.mem_map] at hv
    obtain ⟨p, hp, rfl⟩ := hv
    exact Finset.mem_Ico.mpr (h2 p hp))
  rwa [List.toFinset_card_of_nodup h1, List.length_map, Nat.card_Ico] at this

end Verif

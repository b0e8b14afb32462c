import Verif.Model.AddHelpers
import Verif.Proofs.Mean
import Mathlib.Data.ZMod.Basic
import Mathlib.Order.Interval.Finset.Nat
import Mathlib.Algebra.BigOperators.Intervals
import Mathlib.Tactic.Ring

/-!
# Path counts of ADDs (`count_paths`, `add_terminal_values`)
-/

namespace Verif

open Finset

/-- Indices increase along the edges, terminals are at level `L`. -/
def AD.Ord (L : Nat) : AD → Prop
  | .const _ => True
  | .node v t e => v < childLevel L t ∧ v < childLevel L e ∧ t.Ord L ∧ e.Ord L

/-- What `count_paths` needs: below the root (which is treated as level 0, whatever its index), the
indices increase along the edges. -/
def AD.Ord0 (L : Nat) : AD → Prop
  | .const _ => True
  | .node _ t e => 0 < childLevel L t ∧ 0 < childLevel L e ∧ t.Ord L ∧ e.Ord L

theorem AD.Ord.ord0 {L : Nat} {d : AD} (h : d.Ord L) : d.Ord0 L := by
  cases d with
  | const => trivial
  | node v t e => exact ⟨by have := h.1; omega, by have := h.2.1; omega, h.2.2⟩

theorem AD.Ord.le {L : Nat} : {d : AD} → d.Ord L → childLevel L d ≤ L
  | .const _, _ => le_rfl
  | .node v t e, h => by
      have := AD.Ord.le h.2.2.1
      have := h.1
      simp only [childLevel] at *
      omega

/-- Number of assignments of the variables from the level of the node to `L` that give `q`. -/
def wt (L : Nat) (q : ℚ) : AD → Nat
  | .const p => if p = q then 1 else 0
  | .node v t e => wt L q t * 2 ^ (childLevel L t - v - 1) + wt L q e * 2 ^ (childLevel L e - v - 1)

/-- The same counted from level `l`. -/
def wtAt (L : Nat) (q : ℚ) (l : Nat) : AD → Nat
  | .const p => if p = q then 1 else 0
  | .node _ t e => wt L q t * 2 ^ (childLevel L t - l - 1) + wt L q e * 2 ^ (childLevel L e - l - 1)

theorem wtAt_eq {L : Nat} {q : ℚ} {l : Nat} {d : AD} (h : childLevel L d = l) : wtAt L q l d = wt L q d := by
  cases d with
  | const => rfl
  | node v t e => simp only [childLevel] at h; subst h; rfl

theorem AD.mean_eq {m : Mgr} (N : Nat) (q : ℚ) : {d : AD} → d.WF m → (∀ v ∈ d.vars, v < N) →
    d.Ord N → (wt N q d : ℚ) * 2 ^ childLevel N d = 2 ^ N * mean N (fun x => ind (decide (d.eval x = q)))
  | .const p, _, _, _ => by
      simp only [wt, childLevel, AD.eval]
      by_cases h : p = q <;> simp [h, mean_const]
  | .node v t e, hwf, hv, ho => by
      obtain ⟨ht, he, htb, heb, _⟩ := hwf
      obtain ⟨o1, o2, o3, o4⟩ := ho
      simp only [AD.vars, List.mem_cons, List.mem_append] at hv
      have i1 := AD.mean_eq N q ht (fun w hw => hv w (.inr (.inl hw))) o3
      have i2 := AD.mean_eq N q he (fun w hw => hv w (.inr (.inr hw))) o4
      rw [mean_split N _ v (hv v (.inl rfl))]
      have m1 : mean N (fun x => ind (decide ((AD.node v t e).eval (Function.update x v true) = q)))
          = mean N (fun x => ind (decide (t.eval x = q))) := mean_congr N (fun x => by
        simp [AD.eval, htb.eval_update ht])
      have m2 : mean N (fun x => ind (decide ((AD.node v t e).eval (Function.update x v false) = q)))
          = mean N (fun x => ind (decide (e.eval x = q))) := mean_congr N (fun x => by
        simp [AD.eval, heb.eval_update he])
      rw [m1, m2, mul_div_assoc', mul_add, ← i1, ← i2]
      rw [wt, show childLevel N (AD.node v t e) = v from rfl]
      obtain ⟨a, ha⟩ := Nat.exists_eq_add_of_lt o1
      obtain ⟨b, hb⟩ := Nat.exists_eq_add_of_lt o2
      rw [ha, hb, show v + a + 1 - v - 1 = a by omega, show v + b + 1 - v - 1 = b by omega]
      push_cast
      rw [pow_succ 2 (v + a), pow_succ 2 (v + b), pow_add, pow_add]
      ring

/-- The weight of the root counted from level 0 is the number of inputs with value `q`. -/
theorem wtAt_zero {m : Mgr} {N : Nat} {q : ℚ} {d : AD} (hwf : d.WF m) (hv : ∀ v ∈ d.vars, v < N)
    (ho : d.Ord0 N) (hn : ∃ v t e, d = .node v t e) :
    wtAt N q 0 d = count N (fun x => decide (d.eval x = q)) := by
  obtain ⟨v, t, e, rfl⟩ := hn
  obtain ⟨o1, o2, o3, o4⟩ := ho
  obtain ⟨ht, he, htb, heb, _⟩ := hwf
  simp only [AD.vars, List.mem_cons, List.mem_append] at hv
  have i1 := AD.mean_eq N q ht (fun w hw => hv w (.inr (.inl hw))) o3
  have i2 := AD.mean_eq N q he (fun w hw => hv w (.inr (.inr hw))) o4
  have hc := mean_ind_count N (fun x => decide ((AD.node v t e).eval x = q))
  rw [eq_div_iff (by positivity), mean_split N _ v (hv v (.inl rfl))] at hc
  have m1 : mean N (fun x => ind (decide ((AD.node v t e).eval (Function.update x v true) = q)))
      = mean N (fun x => ind (decide (t.eval x = q))) := mean_congr N (fun x => by
    simp [AD.eval, htb.eval_update ht])
  have m2 : mean N (fun x => ind (decide ((AD.node v t e).eval (Function.update x v false) = q)))
      = mean N (fun x => ind (decide (e.eval x = q))) := mean_congr N (fun x => by
    simp [AD.eval, heb.eval_update he])
  rw [m1, m2] at hc
  have h2 : (wtAt N q 0 (.node v t e) : ℚ) * 2 = wt N q t * 2 ^ childLevel N t + wt N q e * 2 ^ childLevel N e := by
    obtain ⟨a, ha⟩ := Nat.exists_eq_add_of_lt o1
    obtain ⟨b, hb⟩ := Nat.exists_eq_add_of_lt o2
    rw [wtAt, ha, hb, show 0 + a + 1 - 0 - 1 = a by omega, show 0 + b + 1 - 0 - 1 = b by omega]
    push_cast
    ring
  rw [i1, i2] at h2
  have : (wtAt N q 0 (.node v t e) : ℚ) = count N (fun x => decide ((AD.node v t e).eval x = q)) := by
    rw [← hc]; linarith
  exact_mod_cast this

/-! ## The level loop -/

theorem AMap.get_cons (k : AD) (v : Nat) (mp : AMap) (e : AD) :
    AMap.get ((k, v) :: mp) e = if k = e then v else AMap.get mp e := rfl

/-- What the loop maintains; `todo` is the rest of the stack of the current level. -/
structure SInv (L : Nat) (root : AD) (level : Nat) (todo : List AD) (s : PathState) : Prop where
  lv : ∀ l, level < l → ∀ n ∈ s.levels l, childLevel L n = l ∧ n.Ord L ∧ n.size < root.size
  nd : ∀ l, level < l → (s.levels l).Nodup
  td : ∀ n ∈ todo, (n.Ord L ∧ childLevel L n = level ∧ n.size < root.size) ∨ (n = root ∧ level = 0)
  vis : ∀ n, level < childLevel L n → n.size < root.size →
    (n ∈ s.visited ↔ n ∈ s.levels (childLevel L n))
  cnt : ∀ n, level < childLevel L n → n.size < root.size → n ∉ s.visited → s.count.get n = 0

/-- The weight still to be distributed. -/
def pend (L : Nat) (q : ℚ) (level : Nat) (todo : List AD) (s : PathState) : ZMod (2 ^ 64) :=
  (todo.map (fun n => (s.count.get n : ZMod (2 ^ 64)) * wtAt L q level n)).sum +
    ∑ l ∈ Ioc level L, ((s.levels l).map (fun n => (s.count.get n : ZMod (2 ^ 64)) * wt L q n)).sum

theorem list_sum_update {R : Type _} [AddCommGroup R] {c : AD} {f g : AD → R} : ∀ {l : List AD}, l.Nodup → c ∈ l →
    (∀ n, n ≠ c → f n = g n) → (l.map f).sum = (l.map g).sum + (f c - g c)
  | [], _, h, _ => by simp at h
  | a :: as, hnd, hc, hfg => by
      rw [List.nodup_cons] at hnd
      by_cases hac : a = c
      · subst hac
        have : as.map f = as.map g := List.map_congr_left (fun n hn => hfg n (fun h => hnd.1 (h ▸ hn)))
        simp only [List.map_cons, List.sum_cons, this]
        abel
      · have hc' : c ∈ as := by
          rcases List.mem_cons.mp hc with h | h
          · exact absurd h.symm hac
          · exact h
        simp only [List.map_cons, List.sum_cons, list_sum_update hnd.2 hc' hfg, hfg a hac]
        abel

theorem visitChild_spec {L : Nat} {root : AD} {level cur : Nat} {todo : List AD} {s : PathState}
    (hL : L ≤ 64) (inv : SInv L root level todo s) {c : AD} (hc : c.Ord L)
    (hl : level < childLevel L c) (hs : c.size < root.size) :
    ∃ s', visitChild L level cur c s = .ok s' ∧ SInv L root level todo s' ∧
      (∀ q, pend L q level todo s' = pend L q level todo s +
        (cur : ZMod (2 ^ 64)) * ((2 ^ (childLevel L c - level - 1) : Nat) * wt L q c)) ∧
      (∀ n, n.size < root.size ∨ n = root → childLevel L n = level ∨ n = root →
        s'.count.get n = s.count.get n) := by
  have hle := hc.le
  have hcroot : c ≠ root := fun h => by rw [h] at hs; exact lt_irrefl _ hs
  -- nodes of the current level or of other levels are not `c`
  have hother : ∀ l, level < l → l ≠ childLevel L c → ∀ n ∈ s.levels l, n ≠ c := by
    intro l h1 h2 n hn he
    subst he
    exact h2 (inv.lv l h1 n hn).1.symm
  have htodo : ∀ n ∈ todo, n ≠ c := by
    intro n hn he
    subst he
    rcases inv.td n hn with ⟨_, h, _⟩ | ⟨h, _⟩
    · omega
    · exact hcroot h
  have hcast : (((s.count.get c + cur * 2 ^ (childLevel L c - level - 1)) % 2 ^ 64 : Nat) : ZMod (2 ^ 64))
      = (s.count.get c : ZMod (2 ^ 64)) + cur * ((2 ^ (childLevel L c - level - 1) : Nat) : ZMod (2 ^ 64)) := by
    rw [ZMod.natCast_mod]
    push_cast
    rfl
  have hmem : childLevel L c ∈ Ioc level L := by simp only [mem_Ioc]; omega
  unfold visitChild
  simp only
  rw [if_neg (by omega)]
  by_cases hv : c ∈ s.visited
  · rw [if_pos hv]
    refine ⟨_, rfl, ?_, ?_, ?_⟩
    · refine ⟨inv.lv, inv.nd, inv.td, inv.vis, ?_⟩
      intro n h1 h2 h3
      simp only at h3 ⊢
      rw [AMap.get_cons, if_neg (fun (h : c = n) => h3 (h ▸ hv))]
      exact inv.cnt n h1 h2 h3
    · intro q
      unfold pend
      have h1 : todo.map (fun n => (AMap.get ((c, (s.count.get c + cur * 2 ^ (childLevel L c - level - 1)) % 2 ^ 64)
          :: s.count) n : ZMod (2 ^ 64)) * wtAt L q level n)
          = todo.map (fun n => (s.count.get n : ZMod (2 ^ 64)) * wtAt L q level n) :=
        List.map_congr_left (fun n hn => by rw [AMap.get_cons, if_neg (htodo n hn).symm])
      simp only [h1]
      rw [add_assoc]
      congr 1
      rw [← Finset.add_sum_erase _ _ hmem, ← Finset.add_sum_erase _ _ hmem]
      have h2 : ∀ l ∈ (Ioc level L).erase (childLevel L c),
          ((s.levels l).map (fun n => (AMap.get ((c, (s.count.get c + cur * 2 ^ (childLevel L c - level - 1)) % 2 ^ 64)
            :: s.count) n : ZMod (2 ^ 64)) * wt L q n)).sum
          = ((s.levels l).map (fun n => (s.count.get n : ZMod (2 ^ 64)) * wt L q n)).sum := by
        intro l hl'
        rw [mem_erase, mem_Ioc] at hl'
        congr 1
        exact List.map_congr_left (fun n hn => by
          rw [AMap.get_cons, if_neg (hother l hl'.2.1 hl'.1 n hn).symm])
      rw [Finset.sum_congr rfl h2]
      rw [list_sum_update (c := c) (g := fun n => (s.count.get n : ZMod (2 ^ 64)) * wt L q n)
        (inv.nd _ hl) ((inv.vis c hl hs).mp hv) (fun n hn => by
          rw [AMap.get_cons, if_neg (fun h => hn h.symm)])]
      rw [AMap.get_cons, if_pos rfl, hcast]
      ring
    · intro n h1 h2
      simp only
      rw [AMap.get_cons, if_neg]
      rintro rfl
      rcases h2 with h2 | h2
      · omega
      · exact hcroot h2
  · rw [if_neg hv]
    have hc0 := inv.cnt c hl hs hv
    refine ⟨_, rfl, ?_, ?_, ?_⟩
    · constructor
      · intro l h1 n hn
        simp only [Function.update_apply] at hn
        split at hn
        · rename_i h; subst h
          rcases List.mem_cons.mp hn with rfl | hn
          · exact ⟨rfl, hc, hs⟩
          · exact inv.lv _ h1 n hn
        · exact inv.lv l h1 n hn
      · intro l h1
        simp only [Function.update_apply]
        split
        · rename_i h; subst h
          rw [List.nodup_cons]
          exact ⟨fun h => hv ((inv.vis c hl hs).mpr h), inv.nd _ h1⟩
        · exact inv.nd l h1
      · exact inv.td
      · intro n h1 h2
        simp only [List.mem_cons, Function.update_apply]
        by_cases hnc : n = c
        · subst hnc; simp
        · have := inv.vis n h1 h2
          split
          · rename_i h
            simp [hnc, this, h]
          · simp [hnc, this]
      · intro n h1 h2 h3
        simp only [List.mem_cons, not_or] at h3
        simp only
        rw [AMap.get_cons, if_neg (fun h => h3.1 h.symm)]
        exact inv.cnt n h1 h2 h3.2
    · intro q
      unfold pend
      have h1 : todo.map (fun n => (AMap.get ((c, (s.count.get c + cur * 2 ^ (childLevel L c - level - 1)) % 2 ^ 64)
          :: s.count) n : ZMod (2 ^ 64)) * wtAt L q level n)
          = todo.map (fun n => (s.count.get n : ZMod (2 ^ 64)) * wtAt L q level n) :=
        List.map_congr_left (fun n hn => by rw [AMap.get_cons, if_neg (htodo n hn).symm])
      simp only [h1]
      rw [add_assoc]
      congr 1
      rw [← Finset.add_sum_erase _ _ hmem, ← Finset.add_sum_erase _ _ hmem]
      have h2 : ∀ l ∈ (Ioc level L).erase (childLevel L c),
          ((Function.update s.levels (childLevel L c) (c :: s.levels (childLevel L c)) l).map
            (fun n => (AMap.get ((c, (s.count.get c + cur * 2 ^ (childLevel L c - level - 1)) % 2 ^ 64)
            :: s.count) n : ZMod (2 ^ 64)) * wt L q n)).sum
          = ((s.levels l).map (fun n => (s.count.get n : ZMod (2 ^ 64)) * wt L q n)).sum := by
        intro l hl'
        rw [mem_erase, mem_Ioc] at hl'
        rw [Function.update_of_ne hl'.1]
        congr 1
        exact List.map_congr_left (fun n hn => by
          rw [AMap.get_cons, if_neg (hother l hl'.2.1 hl'.1 n hn).symm])
      rw [Finset.sum_congr rfl h2, Function.update_self, List.map_cons, List.sum_cons]
      have h3 : (s.levels (childLevel L c)).map
          (fun n => (AMap.get ((c, (s.count.get c + cur * 2 ^ (childLevel L c - level - 1)) % 2 ^ 64)
            :: s.count) n : ZMod (2 ^ 64)) * wt L q n)
          = (s.levels (childLevel L c)).map (fun n => (s.count.get n : ZMod (2 ^ 64)) * wt L q n) :=
        List.map_congr_left (fun n hn => by
          rw [AMap.get_cons, if_neg]
          rintro rfl
          exact hv ((inv.vis _ hl hs).mpr hn))
      rw [h3, AMap.get_cons, if_pos rfl, hcast, hc0]
      push_cast
      ring
    · intro n h1 h2
      simp only
      rw [AMap.get_cons, if_neg]
      rintro rfl
      rcases h2 with h2 | h2
      · omega
      · exact hcroot h2

theorem visitLevel_spec {L : Nat} {root : AD} {level : Nat} (hL : L ≤ 64) (hlt : level < L)
    (hroot : ∃ v t e, root = .node v t e) (ho : root.Ord0 L) :
    ∀ (todo : List AD) (s : PathState), SInv L root level todo s →
    ∃ s', visitLevel L level todo s = .ok s' ∧ SInv L root level [] s' ∧
      ∀ q, pend L q level [] s' = pend L q level todo s
  | [], s, inv => ⟨s, rfl, inv, fun q => rfl⟩
  | .const p :: ns, s, inv => by
      have h := inv.td (.const p) (by simp)
      simp only [childLevel] at h
      obtain ⟨v, t, e, hr⟩ := hroot
      rcases h with ⟨_, h, _⟩ | ⟨h, _⟩
      · omega
      · rw [hr] at h; simp at h
  | .node v t e :: ns, s, inv => by
      have invns : SInv L root level ns s :=
        ⟨inv.lv, inv.nd, fun k hk => inv.td k (by simp [hk]), inv.vis, inv.cnt⟩
      have hlev : (level < childLevel L t ∧ level < childLevel L e ∧ t.Ord L ∧ e.Ord L) ∧
          (AD.node v t e).size ≤ root.size := by
        rcases inv.td (.node v t e) (by simp) with ⟨h0, h, h'⟩ | ⟨h, h'⟩
        · rw [show childLevel L (AD.node v t e) = v from rfl] at h
          exact ⟨h ▸ h0, h'.le⟩
        · rw [← h] at ho
          rw [← h, h']
          exact ⟨ho, le_rfl⟩
      obtain ⟨⟨o1, o2, o3, o4⟩, hlev⟩ := hlev
      simp only [AD.size] at hlev
      obtain ⟨s1, e1, i1, p1, g1⟩ := visitChild_spec (cur := s.count.get (.node v t e)) hL invns o3
        (by omega) (by omega : t.size < root.size)
      obtain ⟨s2, e2, i2, p2, g2⟩ := visitChild_spec (cur := s.count.get (.node v t e)) hL i1 o4
        (by omega) (by omega : e.size < root.size)
      obtain ⟨s3, e3, i3, p3⟩ := visitLevel_spec hL hlt hroot ho ns s2 i2
      refine ⟨s3, ?_, i3, fun q => ?_⟩
      · simp only [visitLevel, visitNode, e1, e2, e3, bind, Except.bind]
      · rw [p3, p2, p1]
        unfold pend
        rw [List.map_cons, List.sum_cons, wtAt]
        push_cast
        ring

theorem visitLevel_const (L level : Nat) : ∀ (todo : List AD) (s : PathState),
    (∀ n ∈ todo, ∃ p, n = .const p) → visitLevel L level todo s = .ok s
  | [], s, _ => rfl
  | n :: ns, s, h => by
      obtain ⟨p, rfl⟩ := h n (by simp)
      have := visitLevel_const L level ns s (fun k hk => h k (by simp [hk]))
      simp only [visitLevel, visitNode, bind, Except.bind, this]

/-- From one level to the next. -/
theorem SInv.next {L : Nat} {root : AD} {level : Nat} {s : PathState} (h : SInv L root level [] s)
    (hlt : level < L) : SInv L root (level + 1) (s.levels (level + 1)) s ∧
      ∀ q, pend L q (level + 1) (s.levels (level + 1)) s = pend L q level [] s := by
  refine ⟨⟨fun l hl => h.lv l (by omega), fun l hl => h.nd l (by omega), fun n hn => ?_,
    fun n hn => h.vis n (by omega), fun n hn => h.cnt n (by omega)⟩, fun q => ?_⟩
  · obtain ⟨h1, h2, h3⟩ := h.lv (level + 1) (by omega) n hn
    exact .inl ⟨h2, h1, h3⟩
  · unfold pend
    rw [List.map_nil, List.sum_nil, zero_add]
    have : Ioc level L = insert (level + 1) (Ioc (level + 1) L) := by
      ext k; simp only [mem_Ioc, mem_insert]; omega
    rw [this, sum_insert (by simp)]
    congr 2
    apply List.map_congr_left
    intro n hn
    rw [wtAt_eq (h.lv (level + 1) (by omega) n hn).1]

theorem pathLoop_spec {L : Nat} {root : AD} (hL : L ≤ 64) (hroot : ∃ v t e, root = .node v t e)
    (ho : root.Ord0 L) :
    ∀ (k level : Nat) (s : PathState), level + (k + 1) = L →
    SInv L root level (s.levels level) s →
    ∃ s', pathLoop L (k + 1 + 1) level s = .ok s' ∧ SInv L root (L - 1) [] s' ∧
      ∀ q, pend L q (L - 1) [] s' = pend L q level (s.levels level) s
  | 0, level, s, hk, inv => by
      obtain ⟨s1, e1, i1, p1⟩ := visitLevel_spec hL (by omega) hroot ho _ s inv
      have hl : L - 1 = level := by omega
      have : visitLevel L (level + 1) (s1.levels (level + 1)) s1 = .ok s1 := by
        apply visitLevel_const
        intro n hn
        cases n with
        | const p => exact ⟨p, rfl⟩
        | node v t e =>
          exfalso
          obtain ⟨h1, h2, _⟩ := i1.lv (level + 1) (by omega) _ hn
          have h3 := h2.1
          have h4 := h2.2.2.1.le
          simp only [childLevel] at h1
          omega
      refine ⟨s1, ?_, hl ▸ i1, fun q => by rw [hl, p1]⟩
      simp only [pathLoop, e1, this, bind, Except.bind]
  | k + 1, level, s, hk, inv => by
      obtain ⟨s1, e1, i1, p1⟩ := visitLevel_spec hL (by omega) hroot ho _ s inv
      obtain ⟨i2, p2⟩ := i1.next (by omega)
      obtain ⟨s2, e2, i3, p3⟩ := pathLoop_spec hL hroot ho k (level + 1) s1 (by omega) i2
      refine ⟨s2, ?_, i3, fun q => by rw [p3, p2, p1]⟩
      rw [pathLoop, e1]
      simpa only [bind, Except.bind] using e2

/-- `count_paths` gives every terminal the number of inputs that lead to it, modulo 2^64. -/
theorem countPaths_spec {m : Mgr} {L : Nat} {root : AD} (hL : L ≤ 64) (hwf : root.WF m)
    (hv : ∀ v ∈ root.vars, v < L) (ho : root.Ord0 L) (hroot : ∃ v t e, root = .node v t e) :
    ∃ mp, countPaths root L = .ok mp ∧
      ∀ q, (mp.get (.const q) : ZMod (2 ^ 64)) = count L (fun x => decide (root.eval x = q)) := by
  obtain ⟨v, t, e, hr⟩ := hroot
  have hroot : ∃ v t e, root = .node v t e := ⟨v, t, e, hr⟩
  have hL0 : 0 < L := by have := hv v (by simp [hr, AD.vars]); omega
  obtain ⟨K, hK⟩ : ∃ K, L = K + 1 := ⟨L - 1, by omega⟩
  obtain ⟨s, e1, inv, hp⟩ := pathLoop_spec (root := root) hL hroot ho K 0
    ⟨fun l => if l = 0 then [root] else [], [(root, 1)], [root]⟩ (by omega) (by
      constructor
      · intro l hl n hn
        simp only [if_neg (by omega : l ≠ 0), List.not_mem_nil] at hn
      · intro l hl
        simp only [if_neg (by omega : l ≠ 0), List.nodup_nil]
      · intro n hn
        simp only [if_true, List.mem_singleton] at hn
        exact .inr ⟨hn, rfl⟩
      · intro n h1 h2
        simp only [List.mem_singleton, if_neg (by omega : childLevel L n ≠ 0), List.not_mem_nil, iff_false]
        rintro rfl
        exact lt_irrefl _ h2
      · intro n h1 h2 h3
        simp only [List.mem_singleton] at h3
        simp only [if_neg (fun h => h3 (Eq.symm h)), AMap.get])
  refine ⟨s.count, ?_, fun q => ?_⟩
  · rw [hr] at e1 ⊢
    rw [← hK] at e1
    simp only [countPaths, e1, bind, Except.bind]
  · have h1 := hp q
    have h0 : pend L q 0 [root] ⟨fun l => if l = 0 then [root] else [], [(root, 1)], [root]⟩
        = (wtAt L q 0 root : ZMod (2 ^ 64)) := by
      unfold pend
      rw [Finset.sum_eq_zero]
      · simp [AMap.get_cons]
      · intro l hl
        rw [mem_Ioc] at hl
        simp only [if_neg (by omega : l ≠ 0), List.map_nil, List.sum_nil]
    simp only [if_true] at h1
    rw [h0, wtAt_zero hwf hv ho hroot] at h1
    rw [← h1]
    unfold pend
    have hI : Ioc (L - 1) L = {L} := by ext k; simp only [mem_Ioc, mem_singleton]; omega
    rw [hI, sum_singleton, List.map_nil, List.sum_nil, zero_add]
    have hsz : (AD.const q).size < root.size := by rw [hr]; simp [AD.size]
    have hmap : (s.levels L).map (fun n => (s.count.get n : ZMod (2 ^ 64)) * wt L q n)
        = (s.levels L).map (fun n => if n = AD.const q then (s.count.get n : ZMod (2 ^ 64)) else 0) := by
      apply List.map_congr_left
      intro n hn
      cases n with
      | const p =>
        by_cases hpq : p = q
        · simp [wt, hpq]
        · simp [wt, hpq]
      | node v t e =>
        exfalso
        obtain ⟨h1, h2, _⟩ := inv.lv L (by omega) _ hn
        have h3 := h2.1
        have h4 := h2.2.2.1.le
        simp only [childLevel] at h1
        omega
    rw [hmap]
    have hvis := inv.vis (.const q) (by simp only [childLevel]; omega) hsz
    simp only [childLevel] at hvis
    by_cases hm : AD.const q ∈ s.levels L
    · rw [list_sum_update (c := .const q) (g := fun _ => 0) (inv.nd L (by omega)) hm
        (fun n hn => by rw [if_neg hn])]
      simp
    · have h0 := inv.cnt (.const q) (by simp only [childLevel]; omega) hsz (fun h => hm (hvis.mp h))
      rw [h0, Nat.cast_zero]
      symm
      apply List.sum_eq_zero
      intro z hz
      obtain ⟨n, hn, rfl⟩ := List.mem_map.mp hz
      rw [if_neg (fun (h : n = AD.const q) => hm (h ▸ hn))]

/-! ## The search for the terminals -/

/-- What the search maintains: `visited` holds the visited nodes, those not on the stack have been
expanded. -/
structure TInv (root : AD) (stack visited : List AD) : Prop where
  sub : ∀ n ∈ visited, n ∈ root.subs
  nd : visited.Nodup
  snd : stack.Nodup
  st : ∀ n ∈ stack, n ∈ visited
  closed : ∀ v t e, AD.node v t e ∈ visited → AD.node v t e ∉ stack → t ∈ visited ∧ e ∈ visited

theorem AD.self_mem_subs (d : AD) : d ∈ d.subs := by cases d <;> simp [AD.subs]

theorem AD.child_mem_subs {v : Nat} {t e : AD} : {d : AD} → AD.node v t e ∈ d.subs →
    t ∈ d.subs ∧ e ∈ d.subs
  | .const q, h => by simp [AD.subs] at h
  | .node w a b, h => by
      simp only [AD.subs, List.mem_cons, List.mem_append] at h ⊢
      rcases h with h | h | h
      · simp only [AD.node.injEq] at h
        obtain ⟨_, rfl, rfl⟩ := h
        exact ⟨.inr (.inl (AD.self_mem_subs _)), .inr (.inr (AD.self_mem_subs _))⟩
      · obtain ⟨h1, h2⟩ := AD.child_mem_subs h
        exact ⟨.inr (.inl h1), .inr (.inl h2)⟩
      · obtain ⟨h1, h2⟩ := AD.child_mem_subs h
        exact ⟨.inr (.inr h1), .inr (.inr h2)⟩

theorem AD.subs_of_closed {V : List AD} (hc : ∀ v t e, AD.node v t e ∈ V → t ∈ V ∧ e ∈ V) :
    {d : AD} → d ∈ V → ∀ n ∈ d.subs, n ∈ V
  | .const q, h, n, hn => by
      simp only [AD.subs, List.mem_singleton] at hn
      rw [hn]; exact h
  | .node v t e, h, n, hn => by
      simp only [AD.subs, List.mem_cons, List.mem_append] at hn
      obtain ⟨h1, h2⟩ := hc v t e h
      rcases hn with rfl | hn | hn
      · exact h
      · exact AD.subs_of_closed hc h1 n hn
      · exact AD.subs_of_closed hc h2 n hn

/-- The search returns every terminal that is not yet expanded exactly once. -/
theorem terminalLoop_spec (root : AD) (pc : AMap) : ∀ (k : Nat) (stack visited : List AD),
    TInv root stack visited → root ∈ visited →
    root.subs.dedup.length + stack.length ≤ k + visited.length →
    (∀ p ∈ terminalLoop pc k stack visited, p.2 = pc.get (.const p.1)) ∧
    ((terminalLoop pc k stack visited).map Prod.fst).Nodup ∧
    ∀ q, q ∈ (terminalLoop pc k stack visited).map Prod.fst ↔
      (AD.const q ∈ root.subs ∧ ¬ (AD.const q ∈ visited ∧ AD.const q ∉ stack)) := by
  intro k stack visited inv hr hk
  have hfull : ∀ stack visited, TInv root stack visited → root ∈ visited → stack = [] →
      ∀ q, AD.const q ∈ root.subs → AD.const q ∈ visited := by
    intro stack visited inv hr hs q hq
    exact AD.subs_of_closed (fun v t e h => inv.closed v t e h (by simp [hs])) hr _ hq
  have hlen : ∀ stack visited, TInv root stack visited → visited.length ≤ root.subs.dedup.length := by
    intro stack visited inv
    apply List.Subperm.length_le
    apply List.subperm_of_subset inv.nd
    intro n hn
    simpa using inv.sub n hn
  induction k generalizing stack visited with
  | zero =>
    have h1 := hlen _ _ inv
    have hs : stack = [] := by
      apply List.length_eq_zero_iff.mp; omega
    refine ⟨by simp [terminalLoop], by simp [terminalLoop], fun q => ?_⟩
    have := hfull _ _ inv hr hs q
    subst hs
    simp only [terminalLoop, List.map_nil, List.not_mem_nil, not_false_eq_true, and_true, false_iff]
    tauto
  | succ k ih =>
    match stack, inv, hk with
    | [], inv, hk =>
      refine ⟨by simp [terminalLoop], by simp [terminalLoop], fun q => ?_⟩
      have := hfull _ _ inv hr rfl q
      simp only [terminalLoop, List.map_nil, List.not_mem_nil, not_false_eq_true, and_true, false_iff]
      tauto
    | .const p :: stack, inv, hk =>
      have hsnd := List.nodup_cons.mp inv.snd
      have inv' : TInv root stack visited := ⟨inv.sub, inv.nd, hsnd.2, fun n hn => inv.st n (by simp [hn]),
        fun v t e h1 h2 => inv.closed v t e h1 (by simp [h2])⟩
      obtain ⟨h1, h2, h3⟩ := ih stack visited inv' hr (by simp only [List.length_cons] at hk; omega)
      have hpv := inv.st (.const p) (by simp)
      refine ⟨?_, ?_, ?_⟩
      · intro x hx
        simp only [terminalLoop, List.mem_cons] at hx
        rcases hx with rfl | hx
        · rfl
        · exact h1 x hx
      · simp only [terminalLoop, List.map_cons, List.nodup_cons]
        refine ⟨fun h => ?_, h2⟩
        exact ((h3 p).mp h).2 ⟨hpv, hsnd.1⟩
      · intro q
        simp only [terminalLoop, List.map_cons, List.mem_cons, h3 q, AD.const.injEq, not_or]
        by_cases hqp : q = p
        · subst hqp
          simp only [true_or, not_true_eq_false, false_and, and_false, not_false_eq_true, and_true, true_iff]
          exact inv.sub _ hpv
        · simp [hqp]
    | .node v t e :: stack, inv, hk =>
      have hsnd := List.nodup_cons.mp inv.snd
      have hnv := inv.st (.node v t e) (by simp)
      obtain ⟨hts, hes⟩ := AD.child_mem_subs (inv.sub _ hnv)
      -- pushing a node keeps everything except that the current node waits for it
      have push : ∀ (c : AD) (stk vis : List AD), c ∈ root.subs → (∀ n ∈ vis, n ∈ root.subs) →
          vis.Nodup → stk.Nodup → (∀ n ∈ stk, n ∈ vis) →
          (∀ w a b, AD.node w a b ∈ vis → AD.node w a b ∉ stk → AD.node w a b ≠ .node v t e →
            a ∈ vis ∧ b ∈ vis) → AD.node v t e ∈ vis → AD.node v t e ∉ stk →
          ∃ stk' vis', pushNew c (stk, vis) = (stk', vis') ∧ c ∈ vis' ∧ (∀ n ∈ vis, n ∈ vis') ∧
            (∀ n ∈ vis', n ∈ root.subs) ∧ vis'.Nodup ∧ stk'.Nodup ∧ (∀ n ∈ stk', n ∈ vis') ∧
            (∀ w a b, AD.node w a b ∈ vis' → AD.node w a b ∉ stk' → AD.node w a b ≠ .node v t e →
              a ∈ vis' ∧ b ∈ vis') ∧ AD.node v t e ∉ stk' ∧
            vis'.length + stk.length = vis.length + stk'.length ∧
            (∀ q, (AD.const q ∈ vis' ∧ AD.const q ∉ stk') ↔ (AD.const q ∈ vis ∧ AD.const q ∉ stk)) := by
        intro c stk vis hc hvs hvn hsn hsv hcl hm hms
        unfold pushNew
        by_cases hcv : c ∈ vis
        · rw [if_pos hcv]
          exact ⟨stk, vis, rfl, hcv, fun n hn => hn, hvs, hvn, hsn, hsv, hcl, hms, rfl, fun q => Iff.rfl⟩
        · rw [if_neg hcv]
          refine ⟨c :: stk, c :: vis, rfl, by simp, fun n hn => by simp [hn], ?_, ?_, ?_, ?_, ?_, ?_, ?_, ?_⟩
          · intro n hn
            rcases List.mem_cons.mp hn with rfl | hn
            · exact hc
            · exact hvs n hn
          · exact List.nodup_cons.mpr ⟨hcv, hvn⟩
          · exact List.nodup_cons.mpr ⟨fun h => hcv (hsv c h), hsn⟩
          · intro n hn
            rcases List.mem_cons.mp hn with rfl | hn
            · simp
            · simp [hsv n hn]
          · intro w a b h1 h2 h3
            simp only [List.mem_cons, not_or] at h1 h2
            rcases h1 with h1 | h1
            · exact absurd h1 h2.1
            · obtain ⟨x1, x2⟩ := hcl w a b h1 h2.2 h3
              exact ⟨by simp [x1], by simp [x2]⟩
          · simp only [List.mem_cons, not_or]
            exact ⟨fun h => hcv (h ▸ hm), hms⟩
          · simp only [List.length_cons]; omega
          · intro q
            simp only [List.mem_cons, not_or]
            constructor
            · rintro ⟨h1, h2, h3⟩
              rcases h1 with h1 | h1
              · exact absurd h1 h2
              · exact ⟨h1, h3⟩
            · rintro ⟨h1, h2⟩
              exact ⟨.inr h1, fun h => hcv (h ▸ h1), h2⟩
      obtain ⟨s1, v1, e1, c1, m1, a1, b1, d1, f1, g1, n1, l1, q1⟩ := push t stack visited hts inv.sub inv.nd
        hsnd.2 (fun n hn => inv.st n (by simp [hn]))
        (fun w a b h1 h2 h3 => inv.closed w a b h1 (by simp only [List.mem_cons, not_or]; exact ⟨h3, h2⟩))
        hnv hsnd.1
      obtain ⟨s2, v2, e2, c2, m2, a2, b2, d2, f2, g2, n2, l2, q2⟩ := push e s1 v1 hes a1 b1 d1 f1 g1
        (m1 _ hnv) n1
      have inv' : TInv root s2 v2 := by
        refine ⟨a2, b2, d2, f2, fun w a b h1 h2 => ?_⟩
        by_cases hw : AD.node w a b = .node v t e
        · simp only [AD.node.injEq] at hw
          obtain ⟨_, rfl, rfl⟩ := hw
          exact ⟨m2 _ c1, c2⟩
        · exact g2 w a b h1 h2 hw
      obtain ⟨h1, h2, h3⟩ := ih s2 v2 inv' (m2 _ (m1 _ hr)) (by
        simp only [List.length_cons] at hk; omega)
      have he : terminalLoop pc (k + 1) (.node v t e :: stack) visited = terminalLoop pc k s2 v2 := by
        rw [terminalLoop, e1, e2]
      rw [he]
      refine ⟨h1, h2, fun q => ?_⟩
      rw [h3 q, q2 q, q1 q]
      simp

/-- The order of the diagram when no reordering took place. -/
theorem AD.ord_of_mono {m : Mgr} (hm : m.Mono) {L : Nat} : {d : AD} → d.WF m →
    (∀ v ∈ d.vars, v < L) → d.Ord L
  | .const _, _, _ => trivial
  | .node v t e, h, hv => by
      obtain ⟨ht, he, htb, heb, _⟩ := h
      simp only [AD.vars, List.mem_cons, List.mem_append] at hv
      have key : ∀ c : AD, c.Below m (m.lvl v) → v < childLevel L c := by
        intro c hc
        cases c with
        | const => exact hv v (.inl rfl)
        | node w a b =>
          simp only [childLevel]
          have hc' : m.lvl v < m.lvl w := hc
          by_contra hcon
          rcases Nat.lt_or_eq_of_le (not_lt.mp hcon) with h1 | h1
          · exact absurd (hm w v h1) (not_lt.mpr hc'.le)
          · subst h1; exact lt_irrefl _ hc'
      exact ⟨key t htb, key e heb, AD.ord_of_mono hm ht (fun w hw => hv w (.inr (.inl hw))),
        AD.ord_of_mono hm he (fun w hw => hv w (.inr (.inr hw)))⟩

theorem foldl_max_lt (l : List Nat) : ∀ a, (∀ v ∈ l, v ≤ l.foldl max a) ∧ a ≤ l.foldl max a := by
  induction l with
  | nil => intro a; simp
  | cons b bs ih =>
    intro a
    obtain ⟨h1, h2⟩ := ih (max a b)
    simp only [List.foldl_cons, List.mem_cons]
    exact ⟨fun v hv => by
      rcases hv with rfl | hv
      · exact (le_max_right _ _).trans h2
      · exact h1 v hv, (le_max_left _ _).trans h2⟩

theorem lt_termLevel {m : Mgr} (a : ADD m) : ∀ v ∈ a.d.vars, v < termLevel a := by
  intro v hv
  have := (foldl_max_lt a.supportIndices 0).1 v (by simpa [ADD.supportIndices] using hv)
  unfold termLevel
  omega

/-! ## Counts stay below 2^64 -/

theorem visitChild_lt {L level cur : Nat} {c : AD} {s s' : PathState}
    (h : visitChild L level cur c s = .ok s') (hs : ∀ n, s.count.get n < 2 ^ 64) :
    ∀ n, s'.count.get n < 2 ^ 64 := by
  unfold visitChild at h
  simp only at h
  split at h
  · cases h
  · have key : ∀ n, AMap.get ((c, (s.count.get c + cur * 2 ^ (childLevel L c - level - 1)) % 2 ^ 64) ::
        s.count) n < 2 ^ 64 := by
      intro n
      rw [AMap.get_cons]
      split
      · exact Nat.mod_lt _ (by norm_num)
      · exact hs n
    split at h <;> · cases h; exact key

theorem visitLevel_lt {L level : Nat} : ∀ {l : List AD} {s s' : PathState},
    visitLevel L level l s = .ok s' → (∀ n, s.count.get n < 2 ^ 64) → ∀ n, s'.count.get n < 2 ^ 64
  | [], s, s', h, hs => by cases h; exact hs
  | .const p :: ns, s, s', h, hs => visitLevel_lt (l := ns) (by
      simpa only [visitLevel, visitNode, bind, Except.bind] using h) hs
  | .node v t e :: ns, s, s', h, hs => by
      simp only [visitLevel, visitNode, bind, Except.bind] at h
      split at h
      · cases h
      · rename_i s2 h2
        split at h2
        · cases h2
        · rename_i s1 h1
          exact visitLevel_lt h (visitChild_lt h2 (visitChild_lt h1 hs))

theorem pathLoop_lt {L : Nat} : ∀ {k level : Nat} {s s' : PathState},
    pathLoop L k level s = .ok s' → (∀ n, s.count.get n < 2 ^ 64) → ∀ n, s'.count.get n < 2 ^ 64
  | 0, level, s, s', h, hs => by cases h; exact hs
  | k + 1, level, s, s', h, hs => by
      simp only [pathLoop, bind, Except.bind] at h
      split at h
      · cases h
      · rename_i s1 h1
        exact pathLoop_lt h (visitLevel_lt h1 hs)

theorem countPaths_lt {root : AD} {L : Nat} {mp : AMap} (h : countPaths root L = .ok mp) :
    ∀ n, mp.get n < 2 ^ 64 := by
  cases root with
  | const q =>
    cases h
    intro n
    rw [AMap.get_cons]
    split <;> simp [AMap.get]
  | node v t e =>
    simp only [countPaths, bind, Except.bind] at h
    split at h
    · cases h
    · rename_i s hs
      cases h
      apply pathLoop_lt hs
      intro n
      simp only [AMap.get]
      split <;> norm_num

/-- A reduced diagram with an inner root takes at least two values. -/
theorem count_lt {m : Mgr} {N : Nat} (a : ADD m) (hv : ∀ v ∈ a.d.vars, v < N)
    (hroot : ∃ v t e, a.d = .node v t e) (q : ℚ) : count N (fun x => decide (a.eval x = q)) < 2 ^ N := by
  have : ∃ x, a.eval x ≠ q := by
    by_contra hc
    push Not at hc
    have := AD.eq_of_eval a.d (.const q) a.wf trivial hc
    obtain ⟨v, t, e, h⟩ := hroot
    rw [h] at this
    simp at this
  obtain ⟨x, hx⟩ := this
  unfold count
  have hcard : (Finset.univ : Finset (Fin N → Bool)).card = 2 ^ N := by simp
  rw [← hcard]
  apply Finset.card_lt_card
  rw [Finset.ssubset_iff_of_subset (Finset.filter_subset _ _)]
  refine ⟨fun i => x i, Finset.mem_univ _, ?_⟩
  simp only [Finset.mem_filter, Finset.mem_univ, true_and, decide_eq_true_eq]
  have : a.eval (ext (fun i : Fin N => x i)) = a.eval x :=
    AD.eval_congr (fun v h => ext_agree x (hv v h))
  rw [this]
  exact hx

/-- `add_terminal_values` on an ordered diagram. -/
theorem addTerminalValues_spec {m : Mgr} (a : ADD m) (ho : a.d.Ord0 (termLevel a))
    (hL : termLevel a ≤ 64) (hroot : ∃ v t e, a.d = .node v t e) :
    ∃ l, addTerminalValues a = .ok l ∧ (l.map Prod.fst).Nodup ∧
      (∀ q, q ∈ l.map Prod.fst ↔ ∃ x, a.eval x = q) ∧
      ∀ p ∈ l, p.2 = count (termLevel a) (fun x => decide (a.eval x = p.1)) := by
  obtain ⟨mp, hmp, hc⟩ := countPaths_spec hL a.wf (lt_termLevel a) ho hroot
  have inv : TInv a.d [a.d] [a.d] := by
    refine ⟨?_, by simp, by simp, fun n hn => hn, ?_⟩
    · intro n hn
      rw [List.mem_singleton] at hn
      rw [hn]; exact AD.self_mem_subs _
    · intro v t e h1 h2
      exact absurd h1 h2
  obtain ⟨h1, h2, h3⟩ := terminalLoop_spec a.d mp a.d.subs.length [a.d] [a.d] inv (by simp) (by
    have := (List.dedup_sublist a.d.subs).length_le
    simp only [List.length_singleton]; omega)
  refine ⟨_, by simp only [addTerminalValues, hmp, bind, Except.bind], h2, fun q => ?_, fun p hp => ?_⟩
  · rw [h3 q, AD.mem_subs_const a.wf]
    simp only [and_not_self_iff, not_false_eq_true, and_true]
    rfl
  · rw [h1 p hp]
    have e := hc p.1
    rw [ZMod.natCast_eq_natCast_iff] at e
    have l1 := countPaths_lt hmp (.const p.1)
    have l2 := count_lt a (lt_termLevel a) hroot p.1
    have l3 : count (termLevel a) (fun x => decide (a.eval x = p.1)) < 2 ^ 64 :=
      lt_of_lt_of_le l2 (Nat.pow_le_pow_right (by norm_num) hL)
    exact Nat.ModEq.eq_of_lt_of_lt e l1 l3

theorem addTerminalValues_const {m : Mgr} (a : ADD m) {q : ℚ} (h : a.d = .const q) :
    addTerminalValues a = .ok [(q, 1)] := by
  unfold addTerminalValues
  rw [h]
  simp [countPaths, bind, Except.bind, AD.subs, terminalLoop, AMap.get]

/-! ## A result implies the order -/

/-- What a successful run maintains. -/
structure OInv (L : Nat) (root : AD) (level : Nat) (todo : List AD) (s : PathState) : Prop where
  rt : root ∈ s.visited
  sub : ∀ n ∈ s.visited, n ∈ root.subs
  lv : ∀ l, level < l → ∀ n ∈ s.levels l, childLevel L n = l
  td : ∀ n ∈ todo, childLevel L n = level ∨ (n = root ∧ level = 0)
  closed : ∀ v t e, AD.node v t e ∈ s.visited → AD.node v t e ∈ todo ∨
    (∃ l, level < l ∧ AD.node v t e ∈ s.levels l) ∨
    (t ∈ s.visited ∧ e ∈ s.visited ∧ ((v < childLevel L t ∧ v < childLevel L e) ∨
      (AD.node v t e = root ∧ 0 < childLevel L t ∧ 0 < childLevel L e)))

theorem visitChild_ord {L : Nat} {root : AD} {level cur : Nat} {todo : List AD} {s s' : PathState} {c : AD}
    (h : visitChild L level cur c s = .ok s') (inv : OInv L root level todo s) (hc : c ∈ root.subs) :
    OInv L root level todo s' ∧ level < childLevel L c ∧ c ∈ s'.visited ∧
      ∀ n ∈ s.visited, n ∈ s'.visited := by
  unfold visitChild at h
  simp only at h
  split at h
  · cases h
  · rename_i hcl
    have hlt : level < childLevel L c := by omega
    split at h
    · rename_i hv
      cases h
      exact ⟨⟨inv.rt, inv.sub, inv.lv, inv.td, inv.closed⟩, hlt, hv, fun n hn => hn⟩
    · rename_i hv
      cases h
      refine ⟨⟨by simp [inv.rt], ?_, ?_, inv.td, ?_⟩, hlt, by simp, fun n hn => by simp [hn]⟩
      · intro n hn
        rcases List.mem_cons.mp hn with rfl | hn
        · exact hc
        · exact inv.sub n hn
      · intro l hl n hn
        simp only at hn
        by_cases hlc : l = childLevel L c
        · subst hlc
          rw [Function.update_self] at hn
          rcases List.mem_cons.mp hn with rfl | hn
          · rfl
          · exact inv.lv _ hl n hn
        · rw [Function.update_of_ne hlc] at hn
          exact inv.lv l hl n hn
      · intro v t e hn
        simp only at hn ⊢
        rcases List.mem_cons.mp hn with hn | hn
        · refine .inr (.inl ⟨childLevel L c, hlt, ?_⟩)
          rw [Function.update_self, hn]
          simp
        · rcases inv.closed v t e hn with h | ⟨l, hl, h⟩ | ⟨h1, h2, h3⟩
          · exact .inl h
          · refine .inr (.inl ⟨l, hl, ?_⟩)
            by_cases hlc : l = childLevel L c
            · subst hlc
              rw [Function.update_self]
              simp [h]
            · rw [Function.update_of_ne hlc]
              exact h
          · exact .inr (.inr ⟨by simp [h1], by simp [h2], h3⟩)

theorem visitLevel_ord {L : Nat} {root : AD} {level : Nat} : ∀ {todo : List AD} {s s' : PathState},
    visitLevel L level todo s = .ok s' → OInv L root level todo s → (∀ n ∈ todo, n ∈ s.visited) →
    OInv L root level [] s'
  | [], s, s', h, inv, _ => by cases h; exact inv
  | .const p :: ns, s, s', h, inv, hsub =>
      visitLevel_ord (todo := ns) (by simpa only [visitLevel, visitNode, bind, Except.bind] using h)
        ⟨inv.rt, inv.sub, inv.lv, fun n hn => inv.td n (by simp [hn]), fun v t e hn => by
          rcases inv.closed v t e hn with h | h
          · exact .inl (by simpa using h)
          · exact .inr h⟩ (fun n hn => hsub n (by simp [hn]))
  | .node v t e :: ns, s, s', h, inv, hsub => by
      have hin := inv.sub _ (hsub (.node v t e) (by simp))
      obtain ⟨ht, he⟩ := AD.child_mem_subs hin
      simp only [visitLevel, visitNode, bind, Except.bind] at h
      split at h
      · cases h
      · rename_i s2 h2
        split at h2
        · cases h2
        · rename_i s1 h1
          obtain ⟨i1, l1, v1, m1⟩ := visitChild_ord h1 inv ht
          obtain ⟨i2, l2, v2, m2⟩ := visitChild_ord h2 i1 he
          refine visitLevel_ord h ⟨i2.rt, i2.sub, i2.lv, fun n hn => i2.td n (by simp [hn]), ?_⟩
            (fun n hn => m2 _ (m1 _ (hsub n (by simp [hn]))))
          intro v' t' e' hn
          rcases i2.closed v' t' e' hn with h | h
          · rcases List.mem_cons.mp h with h | h
            · cases h
              refine .inr (.inr ⟨m2 _ v1, v2, ?_⟩)
              rcases i2.td (.node v t e) (by simp) with h | ⟨h, h0⟩
              · rw [show childLevel L (AD.node v t e) = v from rfl] at h
                exact .inl ⟨h ▸ l1, h ▸ l2⟩
              · exact .inr ⟨h, h0 ▸ l1, h0 ▸ l2⟩
            · exact .inl h
          · exact .inr h

theorem visitChild_levels {L level cur : Nat} {c : AD} {s s' : PathState}
    (h : visitChild L level cur c s = .ok s') (hs : ∀ l, ∀ n ∈ s.levels l, n ∈ s.visited) :
    ∀ l, ∀ n ∈ s'.levels l, n ∈ s'.visited := by
  unfold visitChild at h
  simp only at h
  split at h
  · cases h
  · split at h
    · cases h; exact hs
    · cases h
      intro l n hn
      simp only at hn ⊢
      by_cases hl : l = childLevel L c
      · subst hl
        rw [Function.update_self] at hn
        rcases List.mem_cons.mp hn with rfl | hn
        · simp
        · simp [hs _ n hn]
      · rw [Function.update_of_ne hl] at hn
        simp [hs _ n hn]

theorem visitLevel_levels {L level : Nat} : ∀ {l : List AD} {s s' : PathState},
    visitLevel L level l s = .ok s' → (∀ l, ∀ n ∈ s.levels l, n ∈ s.visited) →
      ∀ l, ∀ n ∈ s'.levels l, n ∈ s'.visited
  | [], s, s', h, hs => by cases h; exact hs
  | .const p :: ns, s, s', h, hs => visitLevel_levels (l := ns) (by
      simpa only [visitLevel, visitNode, bind, Except.bind] using h) hs
  | .node v t e :: ns, s, s', h, hs => by
      simp only [visitLevel, visitNode, bind, Except.bind] at h
      split at h
      · cases h
      · rename_i s2 h2
        split at h2
        · cases h2
        · rename_i s1 h1
          exact visitLevel_levels h (visitChild_levels h2 (visitChild_levels h1 hs))

theorem pathLoop_ord {L : Nat} {root : AD} : ∀ {k level : Nat} {s s' : PathState},
    pathLoop L (k + 1) level s = .ok s' → OInv L root level (s.levels level) s →
    (∀ l, ∀ n ∈ s.levels l, n ∈ s.visited) → OInv L root (level + k) [] s'
  | 0, level, s, s', h, inv, hl => by
      simp only [pathLoop, bind, Except.bind] at h
      split at h
      · cases h
      · rename_i s1 h1
        cases h
        exact visitLevel_ord h1 inv (hl level)
  | k + 1, level, s, s', h, inv, hl => by
      rw [pathLoop] at h
      simp only [bind, Except.bind] at h
      split at h
      · cases h
      · rename_i s1 h1
        have i1 := visitLevel_ord h1 inv (hl level)
        have hl1 := visitLevel_levels h1 hl
        rw [show level + (k + 1) = level + 1 + k by omega]
        refine pathLoop_ord h ⟨i1.rt, i1.sub, fun l hl => i1.lv l (by omega),
          fun n hn => .inl (i1.lv _ (by omega) n hn), ?_⟩ hl1
        intro v t e hn
        rcases i1.closed v t e hn with h | ⟨l, hl, h⟩ | h
        · simp at h
        · rcases Nat.lt_or_eq_of_le (show level + 1 ≤ l by omega) with h' | h'
          · exact .inr (.inl ⟨l, h', h⟩)
          · exact .inl (h' ▸ h)
        · exact .inr (.inr h)

theorem AD.lt_of_mem_subs {n : AD} : {d : AD} → n ∈ d.subs → n = d ∨ n.size < d.size
  | .const q, h => by simp only [AD.subs, List.mem_singleton] at h; exact .inl h
  | .node v t e, h => by
      simp only [AD.subs, List.mem_cons, List.mem_append] at h
      rcases h with h | h | h
      · exact .inl h
      · right
        rcases AD.lt_of_mem_subs h with h | h
        · subst h; simp only [AD.size]; omega
        · simp only [AD.size]; omega
      · right
        rcases AD.lt_of_mem_subs h with h | h
        · subst h; simp only [AD.size]; omega
        · simp only [AD.size]; omega

theorem AD.var_mem_of_subs {v : Nat} {t e : AD} : {d : AD} → AD.node v t e ∈ d.subs → v ∈ d.vars
  | .const q, h => by simp [AD.subs] at h
  | .node w a b, h => by
      simp only [AD.subs, List.mem_cons, List.mem_append] at h
      simp only [AD.vars, List.mem_cons, List.mem_append]
      rcases h with h | h | h
      · cases h; exact .inl rfl
      · exact .inr (.inl (AD.var_mem_of_subs h))
      · exact .inr (.inr (AD.var_mem_of_subs h))

theorem AD.ord_of_closed {L : Nat} {V : List AD} {root : AD}
    (hc : ∀ v t e, AD.node v t e ∈ V → t ∈ V ∧ e ∈ V ∧
      ((v < childLevel L t ∧ v < childLevel L e) ∨ AD.node v t e = root)) :
    {d : AD} → d ∈ V → d.size < root.size → d.Ord L
  | .const _, _, _ => trivial
  | .node v t e, h, hs => by
      obtain ⟨h1, h2, h3⟩ := hc v t e h
      have hs' := hs
      simp only [AD.size] at hs'
      have h3 := h3.resolve_right (fun he => by rw [he] at hs; exact lt_irrefl _ hs)
      exact ⟨h3.1, h3.2, AD.ord_of_closed hc h1 (by omega), AD.ord_of_closed hc h2 (by omega)⟩

/-- If `count_paths` has no undefined behaviour, the diagram is ordered by index below the root. -/
theorem ord0_of_countPaths {root : AD} {L : Nat} {mp : AMap} (hv : ∀ v ∈ root.vars, v < L)
    (h : countPaths root L = .ok mp) : root.Ord0 L := by
  cases root with
  | const => trivial
  | node v t e =>
    simp only [countPaths, bind, Except.bind] at h
    split at h
    · cases h
    · rename_i s hs
      have inv := pathLoop_ord (root := .node v t e) hs (by
        refine ⟨by simp, ?_, ?_, ?_, ?_⟩
        · intro n hn
          simp only [List.mem_singleton] at hn
          rw [hn]; exact AD.self_mem_subs _
        · intro l hl n hn
          simp only [if_neg (by omega : l ≠ 0), List.not_mem_nil] at hn
        · intro n hn
          simp only [if_true, List.mem_singleton] at hn
          exact .inr ⟨hn, rfl⟩
        · intro v' t' e' hn
          exact .inl (by simpa using hn)) (by
        intro l n hn
        simp only at hn ⊢
        split at hn
        · exact hn
        · simp at hn)
      have hc : ∀ v' t' e', AD.node v' t' e' ∈ s.visited → t' ∈ s.visited ∧ e' ∈ s.visited ∧
          ((v' < childLevel L t' ∧ v' < childLevel L e') ∨
            (AD.node v' t' e' = AD.node v t e ∧ 0 < childLevel L t' ∧ 0 < childLevel L e')) := by
        intro v' t' e' hn
        rcases inv.closed v' t' e' hn with h | ⟨l, hl, h⟩ | h
        · simp at h
        · exfalso
          have h1 := inv.lv l hl _ h
          have h2 := hv v' (AD.var_mem_of_subs (inv.sub _ hn))
          rw [show childLevel L (AD.node v' t' e') = v' from rfl] at h1
          omega
        · exact h
      obtain ⟨h1, h2, h3⟩ := hc v t e inv.rt
      have hc' : ∀ v' t' e', AD.node v' t' e' ∈ s.visited → t' ∈ s.visited ∧ e' ∈ s.visited ∧
          ((v' < childLevel L t' ∧ v' < childLevel L e') ∨ AD.node v' t' e' = AD.node v t e) :=
        fun v' t' e' hn => by
          obtain ⟨a, b, c⟩ := hc v' t' e' hn
          exact ⟨a, b, c.imp id (fun h => h.1)⟩
      refine ⟨?_, ?_, AD.ord_of_closed hc' h1 (by simp only [AD.size]; omega),
        AD.ord_of_closed hc' h2 (by simp only [AD.size]; omega)⟩
      · rcases h3 with h | h
        · have := h.1; omega
        · exact h.2.1
      · rcases h3 with h | h
        · have := h.2; omega
        · exact h.2.2

theorem ord0_of_addTerminalValues {m : Mgr} {a : ADD m} {l : List (ℚ × Nat)}
    (h : addTerminalValues a = .ok l) : a.d.Ord0 (termLevel a) := by
  unfold addTerminalValues at h
  cases hmp : countPaths a.d (termLevel a) with
  | error e => rw [hmp] at h; simp [bind, Except.bind] at h
  | ok mp => exact ord0_of_countPaths (lt_termLevel a) hmp

end Verif

import Mathlib.Logic.Function.Basic
import Mathlib.Tactic.Linarith

/-!
# CUDD binary decision diagrams

abo does not implement BDDs, it calls CUDD (`/repo/src/util/cudd_helpers.cpp:12`
includes `cudd/cudd.h`).  This file models the data structure that abo looks into
through `Cudd_T`, `Cudd_E`, `Cudd_Regular`, `Cudd_IsComplement`,
`Cudd_NodeReadIndex` and pointer comparison (e.g. `cudd_helpers.cpp:94-100`,
`439-475`).
-/

namespace Verif

/-- An assignment of the input variables (variable index to value). -/
abbrev Asg := Nat → Bool

/-- The part of the CUDD manager that matters: the variable order
(`Cudd_ReadPerm`), a bijection between indices and levels in CUDD, here an arbitrary
injective map.  `/repo/src/minimization/minimization_helper.cpp:17-37` turns on
dynamic reordering, so the order is not fixed. -/
structure Mgr where
  lvl : Nat → Nat
  inj : ∀ a b, lvl a = lvl b → a = b

/-- The manager without reordering: the level of a variable is its index. -/
def Mgr.id : Mgr := ⟨fun v => v, fun _ _ h => h⟩

/-- A regular BDD node.  `node v t c e` has index `v`, then-child `t` (CUDD keeps
then-edges regular) and else-child `e` behind an edge with complement bit `c`.
There is one terminal, `one` (CUDD's logical zero is the complemented one).
Structural equality models pointer equality (`cudd_helpers.cpp:77` uses node pointers
as map keys): CUDD's unique table never holds two equal nodes. -/
inductive DD where
  | one
  | node (v : Nat) (t : DD) (c : Bool) (e : DD)
  deriving DecidableEq, Repr

/-- A `DdNode*` as seen by abo: a regular node and the complement bit
(`Cudd_IsComplement`, `cudd_helpers.cpp:86`). -/
structure Edge where
  neg : Bool
  n : DD
  deriving DecidableEq, Repr

namespace DD

/-- The function of a regular node. -/
def eval (x : Asg) : DD → Bool
  | one => true
  | node v t c e => if x v then t.eval x else (c ^^ e.eval x)

/-- Number of inner tree nodes (recursion measure). -/
def size : DD → Nat
  | one => 0
  | node _ t _ e => t.size + e.size + 1

/-- The variable indices that occur in the diagram. -/
def vars : DD → List Nat
  | one => []
  | node v t _ e => v :: (t.vars ++ e.vars)

/-- `d` only tests variables strictly below level `l` in the order. -/
def Below (m : Mgr) (l : Nat) : DD → Prop
  | one => True
  | node v _ _ _ => l < m.lvl v

instance (m : Mgr) (l : Nat) (d : DD) : Decidable (d.Below m l) := by
  cases d <;> simp only [Below] <;> infer_instance

/-- Reduced and ordered, as CUDD guarantees for every node in the unique table. -/
def WF (m : Mgr) : DD → Prop
  | one => True
  | node v t c e => t.WF m ∧ e.WF m ∧ t.Below m (m.lvl v) ∧ e.Below m (m.lvl v) ∧
      ¬ (c = false ∧ t = e)

instance decWF (m : Mgr) : (d : DD) → Decidable (d.WF m)
  | one => .isTrue trivial
  | node v t c e => by
      have := decWF m t
      have := decWF m e
      simp only [WF]
      infer_instance

end DD

namespace Edge

/-- The function of a handle. -/
def eval (a : Edge) (x : Asg) : Bool := a.neg ^^ a.n.eval x

/-- `Cudd_Not`. -/
def not (a : Edge) : Edge := ⟨!a.neg, a.n⟩

/-- `Cudd_ReadOne`. -/
def one : Edge := ⟨false, .one⟩
/-- `Cudd_ReadLogicZero`. -/
def zero : Edge := ⟨true, .one⟩

/-- `Cudd_IsConstant`. -/
def isConst (a : Edge) : Bool := match a.n with
  | .one => true
  | .node .. => false

/-- The unique-table constructor `cuddUniqueInter` together with the reduction rule and
the then-edge normalisation all CUDD operations use. -/
def mk' (v : Nat) (a b : Edge) : Edge :=
  if a = b then a
  else if a.neg then ⟨true, .node v a.n (!b.neg) b.n⟩
  else ⟨false, .node v a.n b.neg b.n⟩

/-- Cofactor with respect to a variable that is at or above the top of the diagram. -/
def cof (v : Nat) (b : Bool) (a : Edge) : Edge := match a.n with
  | .one => a
  | .node w t c e => if w = v then (if b then ⟨a.neg, t⟩ else ⟨a.neg ^^ c, e⟩) else a

/-- The top variable of two diagrams, `none` if both are constant. -/
def top2 (m : Mgr) (a b : Edge) : Option Nat := match a.n, b.n with
  | .one, .one => none
  | .node v _ _ _, .one => some v
  | .one, .node w _ _ _ => some w
  | .node v _ _ _, .node w _ _ _ => some (if m.lvl v ≤ m.lvl w then v else w)

/-- Binary apply with a recursion bound (the bound used, the sum of the sizes, is never
reached).  Models `Cudd_bddAnd`, `Cudd_bddOr`, `Cudd_bddXor`: they all return the unique
reduced diagram of the pointwise operation. -/
def applyF (m : Mgr) (op : Bool → Bool → Bool) : Nat → Edge → Edge → Edge
  | 0, a, b => ⟨!(op (!a.neg) (!b.neg)), .one⟩
  | k + 1, a, b => match top2 m a b with
    | none => ⟨!(op (!a.neg) (!b.neg)), .one⟩
    | some v => mk' v (applyF m op k (a.cof v true) (b.cof v true))
        (applyF m op k (a.cof v false) (b.cof v false))

def apply (m : Mgr) (op : Bool → Bool → Bool) (a b : Edge) : Edge :=
  applyF m op (a.n.size + b.n.size) a b

end Edge

/-! ## Basic facts -/

namespace DD

theorem eval_allTrue (d : DD) : d.eval (fun _ => true) = true := by
  induction d with
  | one => rfl
  | node v t c e ih _ => simpa [eval] using ih

theorem eval_congr {d : DD} {x y : Asg} (h : ∀ v ∈ d.vars, x v = y v) : d.eval x = d.eval y := by
  induction d with
  | one => rfl
  | node v t c e iht ihe =>
    simp only [vars, List.mem_cons, List.mem_append] at h
    simp only [eval]
    rw [h v (Or.inl rfl), iht (fun w hw => h w (.inr (.inl hw))),
      ihe (fun w hw => h w (.inr (.inr hw)))]

theorem Below.vars {m : Mgr} {l : Nat} : {d : DD} → d.WF m → d.Below m l →
    ∀ v ∈ d.vars, l < m.lvl v
  | one, _, _, v, hv => by simp [DD.vars] at hv
  | node w t c e, hwf, hb, v, hv => by
      obtain ⟨ht, he, htb, heb, _⟩ := hwf
      simp only [DD.vars, List.mem_cons, List.mem_append] at hv
      simp only [Below] at hb
      rcases hv with rfl | hv | hv
      · exact hb
      · exact lt_trans hb (Below.vars ht htb v hv)
      · exact lt_trans hb (Below.vars he heb v hv)

theorem Below.mono {m : Mgr} {l l' : Nat} (h : l' ≤ l) {d : DD} (hb : d.Below m l) :
    d.Below m l' := by
  cases d with
  | one => trivial
  | node => exact lt_of_le_of_lt h hb

theorem Below.notMem {m : Mgr} {v : Nat} {d : DD} (hwf : d.WF m) (hb : d.Below m (m.lvl v)) :
    v ∉ d.vars := fun h => absurd (hb.vars hwf v h) (lt_irrefl _)

theorem eval_update_of_notMem {d : DD} {v : Nat} (h : v ∉ d.vars) (x : Asg) (b : Bool) :
    d.eval (Function.update x v b) = d.eval x := by
  apply eval_congr
  intro w hw
  have : w ≠ v := fun e => h (e ▸ hw)
  simp [Function.update, this]

theorem Below.eval_update {m : Mgr} {v : Nat} {d : DD} (hwf : d.WF m)
    (hb : d.Below m (m.lvl v)) (x : Asg) (b : Bool) :
    d.eval (Function.update x v b) = d.eval x :=
  eval_update_of_notMem (hb.notMem hwf) x b

/-- A function whose node is constantly true is the terminal. -/
theorem eq_one_of_eval {m : Mgr} {d : DD} (hwf : d.WF m) (h : ∀ x, d.eval x = true) : d = one := by
  induction d with
  | one => rfl
  | node v t c e iht ihe =>
    exfalso
    obtain ⟨ht, he, htb, heb, hr⟩ := hwf
    have h1 : ∀ x, t.eval x = true := fun x => by
      have := h (Function.update x v true)
      simpa [eval, htb.eval_update ht] using this
    have h2 : ∀ x, (c ^^ e.eval x) = true := fun x => by
      have := h (Function.update x v false)
      simpa [eval, heb.eval_update he] using this
    have hc : c = false := by
      have := h2 (fun _ => true)
      rw [eval_allTrue] at this
      simpa using this
    subst hc
    have := iht ht h1
    have := ihe he (fun x => by simpa using h2 x)
    exact hr ⟨rfl, by simp_all⟩

/-- Canonicity for regular nodes. -/
theorem eq_of_eval {m : Mgr} : (d₁ d₂ : DD) → d₁.WF m → d₂.WF m →
    (∀ x, d₁.eval x = d₂.eval x) → d₁ = d₂
  | one, d₂, _, h₂, h => (eq_one_of_eval h₂ (fun x => by rw [← h]; rfl)).symm
  | node v t c e, one, h₁, _, h => eq_one_of_eval h₁ (fun x => by rw [h]; rfl)
  | node v₁ t₁ c₁ e₁, node v₂ t₂ c₂ e₂, h₁, h₂, h => by
    obtain ⟨ht₁, he₁, htb₁, heb₁, hr₁⟩ := h₁
    obtain ⟨ht₂, he₂, htb₂, heb₂, hr₂⟩ := h₂
    rcases lt_trichotomy (m.lvl v₁) (m.lvl v₂) with hlt | heq | hgt
    · exfalso
      have hwf₂ : (node v₂ t₂ c₂ e₂).WF m := ⟨ht₂, he₂, htb₂, heb₂, hr₂⟩
      have hb : (node v₂ t₂ c₂ e₂).Below m (m.lvl v₁) := hlt
      have e1 : ∀ x, t₁.eval x = (c₁ ^^ e₁.eval x) := fun x => by
        have a := h (Function.update x v₁ true)
        have b := h (Function.update x v₁ false)
        rw [hb.eval_update hwf₂] at a b
        rw [← b] at a
        simpa [eval, htb₁.eval_update ht₁, heb₁.eval_update he₁] using a
      have hc : c₁ = false := by
        have := e1 (fun _ => true)
        simpa [eval_allTrue] using this
      subst hc
      exact hr₁ ⟨rfl, eq_of_eval t₁ e₁ ht₁ he₁ (fun x => by simpa using e1 x)⟩
    · have hv := m.inj _ _ heq
      subst hv
      have e1 : ∀ x, t₁.eval x = t₂.eval x := fun x => by
        have := h (Function.update x v₁ true)
        simpa [eval, htb₁.eval_update ht₁, htb₂.eval_update ht₂] using this
      have e2 : ∀ x, (c₁ ^^ e₁.eval x) = (c₂ ^^ e₂.eval x) := fun x => by
        have := h (Function.update x v₁ false)
        simpa [eval, heb₁.eval_update he₁, heb₂.eval_update he₂] using this
      have hc : c₁ = c₂ := by
        have := e2 (fun _ => true)
        simpa [eval_allTrue] using this
      subst hc
      have r1 := eq_of_eval t₁ t₂ ht₁ ht₂ e1
      have r2 := eq_of_eval e₁ e₂ he₁ he₂ (fun x => by simpa using e2 x)
      rw [r1, r2]
    · exfalso
      have hwf₁ : (node v₁ t₁ c₁ e₁).WF m := ⟨ht₁, he₁, htb₁, heb₁, hr₁⟩
      have hb : (node v₁ t₁ c₁ e₁).Below m (m.lvl v₂) := hgt
      have e1 : ∀ x, t₂.eval x = (c₂ ^^ e₂.eval x) := fun x => by
        have a := h (Function.update x v₂ true)
        have b := h (Function.update x v₂ false)
        rw [hb.eval_update hwf₁] at a b
        rw [b] at a
        simpa [eval, htb₂.eval_update ht₂, heb₂.eval_update he₂] using a.symm
      have hc : c₂ = false := by
        have := e1 (fun _ => true)
        simpa [eval_allTrue] using this
      subst hc
      exact hr₂ ⟨rfl, eq_of_eval t₂ e₂ ht₂ he₂ (fun x => by simpa using e1 x)⟩
termination_by d₁ d₂ => d₁.size + d₂.size
decreasing_by all_goals simp only [size]; omega

end DD

namespace Edge

theorem eval_mk' (v : Nat) (a b : Edge) (x : Asg) :
    (mk' v a b).eval x = if x v then a.eval x else b.eval x := by
  obtain ⟨an, ad⟩ := a
  obtain ⟨bn, bd⟩ := b
  unfold mk'
  split
  · rename_i h; rw [h]; simp
  · cases an <;> cases bn <;> simp [eval, DD.eval] <;> split <;> simp

theorem wf_mk' {m : Mgr} {v : Nat} {a b : Edge} (ha : a.n.WF m) (hb : b.n.WF m)
    (hav : a.n.Below m (m.lvl v)) (hbv : b.n.Below m (m.lvl v)) : (mk' v a b).n.WF m := by
  obtain ⟨an, ad⟩ := a
  obtain ⟨bn, bd⟩ := b
  unfold mk'
  split
  · exact ha
  · rename_i h
    cases an <;> cases bn <;> simp [DD.WF, *] <;> simp_all

theorem below_mk' {m : Mgr} {l v : Nat} {a b : Edge} (ha : a.n.Below m (m.lvl v))
    (h : l < m.lvl v) : (mk' v a b).n.Below m l := by
  unfold mk'
  split
  · exact ha.mono h.le
  · split <;> exact h

theorem eval_not (a : Edge) (x : Asg) : a.not.eval x = !a.eval x := by
  obtain ⟨an, ad⟩ := a
  cases an <;> simp [eval, not]

/-- Canonicity for handles: equal functions have equal handles. -/
theorem eq_of_eval {m : Mgr} {a b : Edge} (ha : a.n.WF m) (hb : b.n.WF m)
    (h : ∀ x, a.eval x = b.eval x) : a = b := by
  obtain ⟨an, ad⟩ := a
  obtain ⟨bn, bd⟩ := b
  have hn : an = bn := by
    have := h (fun _ => true)
    simpa [eval, DD.eval_allTrue] using this
  subst hn
  have : ad = bd := DD.eq_of_eval ad bd ha hb (fun x => by simpa [eval] using h x)
  rw [this]

theorem cof_wf {m : Mgr} {a : Edge} (ha : a.n.WF m) (v : Nat) (b : Bool) : (a.cof v b).n.WF m := by
  obtain ⟨an, ad⟩ := a
  cases ad with
  | one => exact ha
  | node w t c e =>
    simp only [cof]
    split
    · split
      · exact ha.1
      · exact ha.2.1
    · exact ha

theorem cof_eval {m : Mgr} {a : Edge} (ha : a.n.WF m) {v : Nat} (hv : v ∈ a.n.vars → ∃ t c e, a.n = .node v t c e)
    (b : Bool) (x : Asg) : (a.cof v b).eval x = a.eval (Function.update x v b) := by
  obtain ⟨an, ad⟩ := a
  cases ad with
  | one => rfl
  | node w t c e =>
    simp only [cof]
    split
    · rename_i h; subst h
      obtain ⟨ht, he, htb, heb, _⟩ := ha
      cases b <;> cases an <;> simp [eval, DD.eval, htb.eval_update ht, heb.eval_update he]
    · rename_i h
      have : v ∉ (DD.node w t c e).vars := fun hm => by
        obtain ⟨t', c', e', h'⟩ := hv hm
        simp only [DD.node.injEq] at h'
        exact h h'.1
      simp [eval, DD.eval_update_of_notMem this]

/-- At the top variable of two diagrams both satisfy the side condition of `cof_eval`. -/
theorem top2_spec {m : Mgr} {a b : Edge} (ha : a.n.WF m) (hb : b.n.WF m) {v : Nat}
    (h : top2 m a b = some v) :
    ((a.n.Below m (m.lvl v)) ∨ ∃ t c e, a.n = .node v t c e) ∧
    ((b.n.Below m (m.lvl v)) ∨ ∃ t c e, b.n = .node v t c e) ∧
    ((∃ t c e, a.n = .node v t c e) ∨ (∃ t c e, b.n = .node v t c e)) := by
  obtain ⟨an, ad⟩ := a
  obtain ⟨bn, bd⟩ := b
  cases ad with
  | one =>
    cases bd with
    | one => simp [top2] at h
    | node w t c e =>
      simp only [top2, Option.some.injEq] at h; subst h
      exact ⟨.inl trivial, .inr ⟨_, _, _, rfl⟩, .inr ⟨_, _, _, rfl⟩⟩
  | node u t c e =>
    cases bd with
    | one =>
      simp only [top2, Option.some.injEq] at h; subst h
      exact ⟨.inr ⟨_, _, _, rfl⟩, .inl trivial, .inl ⟨_, _, _, rfl⟩⟩
    | node w t' c' e' =>
      simp only [top2, Option.some.injEq] at h
      split at h
      · subst h
        refine ⟨.inr ⟨_, _, _, rfl⟩, ?_, .inl ⟨_, _, _, rfl⟩⟩
        rename_i hle
        rcases lt_or_eq_of_le hle with h1 | h1
        · exact .inl h1
        · have := m.inj _ _ h1; subst this
          exact .inr ⟨_, _, _, rfl⟩
      · subst h
        rename_i hle
        exact ⟨.inl (not_le.mp hle), .inr ⟨_, _, _, rfl⟩, .inr ⟨_, _, _, rfl⟩⟩

theorem cof_below {m : Mgr} {a : Edge} (ha : a.n.WF m) {v : Nat} (b : Bool)
    (h : (a.n.Below m (m.lvl v)) ∨ ∃ t c e, a.n = .node v t c e) :
    (a.cof v b).n.Below m (m.lvl v) := by
  obtain ⟨an, ad⟩ := a
  rcases h with h | ⟨t, c, e, h⟩
  · cases ad with
    | one => trivial
    | node w t c e =>
      simp only [cof]
      split
      · rename_i hw; subst hw; exact absurd h (lt_irrefl _)
      · exact h
  · simp only at h; subst h
    simp only [cof, if_true]
    cases b
    · exact ha.2.2.2.1
    · exact ha.2.2.1

theorem cof_size_le (a : Edge) (v : Nat) (b : Bool) : (a.cof v b).n.size ≤ a.n.size := by
  obtain ⟨an, ad⟩ := a
  cases ad with
  | one => exact le_refl _
  | node w t c e =>
    simp only [cof]
    split
    · split <;> simp only [DD.size] <;> omega
    · exact le_refl _

theorem cof_size_lt (a : Edge) (v : Nat) (b : Bool) (h : ∃ t c e, a.n = .node v t c e) :
    (a.cof v b).n.size < a.n.size := by
  obtain ⟨an, ad⟩ := a
  obtain ⟨t, c, e, h⟩ := h
  simp only at h; subst h
  simp only [cof, if_true]
  split <;> simp only [DD.size] <;> omega

theorem top2_none {m : Mgr} {a b : Edge} (h : top2 m a b = none) : a.n = .one ∧ b.n = .one := by
  obtain ⟨an, ad⟩ := a
  obtain ⟨bn, bd⟩ := b
  cases ad <;> cases bd <;> simp_all [top2]

theorem below_applyF {m : Mgr} {op : Bool → Bool → Bool} (l : Nat) :
    (k : Nat) → (a b : Edge) → a.n.WF m → b.n.WF m → a.n.Below m l → b.n.Below m l →
    (applyF m op k a b).n.Below m l
  | 0, _, _, _, _, _, _ => trivial
  | k + 1, a, b, ha, hb, hal, hbl => by
    simp only [applyF]
    split
    · trivial
    · rename_i v hv
      obtain ⟨h1, h2, h3⟩ := top2_spec ha hb hv
      have hl : l < m.lvl v := by
        rcases h3 with ⟨t, c, e, h⟩ | ⟨t, c, e, h⟩
        · rw [h] at hal; exact hal
        · rw [h] at hbl; exact hbl
      refine below_mk' ?_ hl
      exact below_applyF _ k _ _ (cof_wf ha _ _) (cof_wf hb _ _) (cof_below ha _ h1)
        (cof_below hb _ h2)

theorem applyF_spec {m : Mgr} (op : Bool → Bool → Bool) :
    (k : Nat) → (a b : Edge) → a.n.WF m → b.n.WF m → a.n.size + b.n.size ≤ k →
    (applyF m op k a b).n.WF m ∧ ∀ x, (applyF m op k a b).eval x = op (a.eval x) (b.eval x)
  | 0, a, b, _, _, hk => by
    obtain ⟨an, ad⟩ := a
    obtain ⟨bn, bd⟩ := b
    cases ad with
    | node => simp [DD.size] at hk
    | one =>
      cases bd with
      | node => simp [DD.size] at hk
      | one => exact ⟨trivial, fun x => by simp [applyF, eval, DD.eval]⟩
  | k + 1, a, b, ha, hb, hk => by
    simp only [applyF]
    split
    · rename_i h
      obtain ⟨h1, h2⟩ := top2_none h
      refine ⟨trivial, fun x => ?_⟩
      simp [eval, DD.eval, h1, h2]
    · rename_i v hv
      obtain ⟨h1, h2, h3⟩ := top2_spec ha hb hv
      have hs : ∀ bb, (a.cof v bb).n.size + (b.cof v bb).n.size ≤ k := fun bb => by
        have := cof_size_le a v bb
        have := cof_size_le b v bb
        rcases h3 with h | h
        · have := cof_size_lt a v bb h; omega
        · have := cof_size_lt b v bb h; omega
      have ih := fun bb => applyF_spec op k (a.cof v bb) (b.cof v bb) (cof_wf ha v bb)
        (cof_wf hb v bb) (hs bb)
      have hbel := fun bb => below_applyF (op := op) (m.lvl v) k (a.cof v bb) (b.cof v bb)
        (cof_wf ha v bb) (cof_wf hb v bb) (cof_below ha bb h1) (cof_below hb bb h2)
      have hva : v ∈ a.n.vars → ∃ t c e, a.n = .node v t c e := fun hm => by
        rcases h1 with h | h
        · exact absurd hm (h.notMem ha)
        · exact h
      have hvb : v ∈ b.n.vars → ∃ t c e, b.n = .node v t c e := fun hm => by
        rcases h2 with h | h
        · exact absurd hm (h.notMem hb)
        · exact h
      refine ⟨wf_mk' (ih true).1 (ih false).1 (hbel true) (hbel false), fun x => ?_⟩
      rw [eval_mk', (ih true).2, (ih false).2, cof_eval ha hva, cof_eval ha hva, cof_eval hb hvb,
        cof_eval hb hvb]
      cases hx : x v
      · rw [← hx, Function.update_eq_self]; simp [hx]
      · rw [← hx, Function.update_eq_self]; simp [hx]

theorem wf_apply {m : Mgr} (op : Bool → Bool → Bool) {a b : Edge} (ha : a.n.WF m)
    (hb : b.n.WF m) : (apply m op a b).n.WF m :=
  (applyF_spec op _ a b ha hb le_rfl).1

theorem eval_apply {m : Mgr} (op : Bool → Bool → Bool) {a b : Edge} (ha : a.n.WF m)
    (hb : b.n.WF m) (x : Asg) : (apply m op a b).eval x = op (a.eval x) (b.eval x) :=
  (applyF_spec op _ a b ha hb le_rfl).2 x

end Edge

end Verif

import Verif.DD.BDD

/-!
# CUDD algebraic decision diagrams

abo uses ADDs through `BDD::Add`, the arithmetic operators, `Cudd_addApply` with its own operator
(`/repo/src/util/cudd_helpers.cpp:371-403`), `ADD::FindMax`, `SupportIndices` and by walking the
nodes (`Cudd_T`, `Cudd_E`, `Cudd_V`, `cudd_helpers.cpp:225-330`).  Terminal values are exact rationals
here and `double`s in CUDD; CUDD's merging of constants closer than `Cudd_ReadEpsilon` is not modelled.
-/

namespace Verif

/-- An ADD node: there are no complement edges.  Structural equality is pointer equality. -/
inductive AD where
  | const (q : ℚ)
  | node (v : Nat) (t e : AD)
  deriving DecidableEq

namespace AD

/-- The function of a node. -/
def eval (x : Asg) : AD → ℚ
  | const q => q
  | node v t e => if x v then t.eval x else e.eval x

/-- Recursion measure. -/
def size : AD → Nat
  | const _ => 0
  | node _ t e => t.size + e.size + 1

/-- The variable indices that occur in the diagram. -/
def vars : AD → List Nat
  | const _ => []
  | node v t e => v :: (t.vars ++ e.vars)

/-- All sub-diagrams, including the diagram itself. -/
def subs : AD → List AD
  | const q => [const q]
  | node v t e => node v t e :: (t.subs ++ e.subs)

/-- The top variable is strictly below level `l` in the order. -/
def Below (m : Mgr) (l : Nat) : AD → Prop
  | const _ => True
  | node v _ _ => l < m.lvl v

/-- Reduced and ordered. -/
def WF (m : Mgr) : AD → Prop
  | const _ => True
  | node v t e => t.WF m ∧ e.WF m ∧ t.Below m (m.lvl v) ∧ e.Below m (m.lvl v) ∧ t ≠ e

instance (m : Mgr) (l : Nat) (d : AD) : Decidable (d.Below m l) := by
  cases d <;> simp only [Below] <;> infer_instance

/-- The unique-table constructor with the reduction rule. -/
def mk' (v : Nat) (t e : AD) : AD := if t = e then t else node v t e

/-- Cofactor with respect to a variable at or above the top of the diagram. -/
def cof (v : Nat) (b : Bool) : AD → AD
  | const q => const q
  | node w t e => if w = v then (if b then t else e) else node w t e

/-- The value of a terminal (`Cudd_V`); inner nodes are not asked. -/
def value : AD → ℚ
  | const q => q
  | node _ _ _ => 0

/-- The top variable of two diagrams, `none` if both are constant. -/
def top2 (m : Mgr) : AD → AD → Option Nat
  | const _, const _ => none
  | node v _ _, const _ => some v
  | const _, node w _ _ => some w
  | node v _ _, node w _ _ => some (if m.lvl v ≤ m.lvl w then v else w)

/-- `Cudd_addApply` with a recursion bound that is never reached: the reduced diagram of the pointwise
operation. -/
def applyF (m : Mgr) (op : ℚ → ℚ → ℚ) : Nat → AD → AD → AD
  | 0, a, b => const (op a.value b.value)
  | k + 1, a, b => match top2 m a b with
    | none => const (op a.value b.value)
    | some v => mk' v (applyF m op k (a.cof v true) (b.cof v true))
        (applyF m op k (a.cof v false) (b.cof v false))

def apply (m : Mgr) (op : ℚ → ℚ → ℚ) (a b : AD) : AD := applyF m op (a.size + b.size) a b

/-- `Cudd_BddToAdd` on a regular node with a complement bit. -/
def ofDD : DD → Bool → AD
  | .one, neg => const (if neg then 0 else 1)
  | .node v t c e, neg => mk' v (ofDD t neg) (ofDD e (neg ^^ c))

/-! ## Facts -/

theorem eval_congr {d : AD} {x y : Asg} (h : ∀ v ∈ d.vars, x v = y v) : d.eval x = d.eval y := by
  induction d with
  | const q => rfl
  | node v t e iht ihe =>
    simp only [vars, List.mem_cons, List.mem_append] at h
    simp only [eval]
    rw [h v (.inl rfl), iht (fun w hw => h w (.inr (.inl hw))), ihe (fun w hw => h w (.inr (.inr hw)))]

theorem Below.vars {m : Mgr} {l : Nat} : {d : AD} → d.WF m → d.Below m l → ∀ v ∈ d.vars, l < m.lvl v
  | const _, _, _, v, hv => by simp [AD.vars] at hv
  | node w t e, hwf, hb, v, hv => by
      obtain ⟨ht, he, htb, heb, _⟩ := hwf
      simp only [AD.vars, List.mem_cons, List.mem_append] at hv
      simp only [Below] at hb
      rcases hv with rfl | hv | hv
      · exact hb
      · exact lt_trans hb (Below.vars ht htb v hv)
      · exact lt_trans hb (Below.vars he heb v hv)

theorem Below.mono {m : Mgr} {l l' : Nat} (h : l' ≤ l) {d : AD} (hb : d.Below m l) : d.Below m l' := by
  cases d with
  | const => trivial
  | node => exact lt_of_le_of_lt h hb

theorem Below.notMem {m : Mgr} {v : Nat} {d : AD} (hwf : d.WF m) (hb : d.Below m (m.lvl v)) :
    v ∉ d.vars := fun h => absurd (hb.vars hwf v h) (lt_irrefl _)

theorem eval_update_of_notMem {d : AD} {v : Nat} (h : v ∉ d.vars) (x : Asg) (b : Bool) :
    d.eval (Function.update x v b) = d.eval x := by
  apply eval_congr
  intro w hw
  have : w ≠ v := fun e => h (e ▸ hw)
  simp [Function.update, this]

theorem Below.eval_update {m : Mgr} {v : Nat} {d : AD} (hwf : d.WF m) (hb : d.Below m (m.lvl v))
    (x : Asg) (b : Bool) : d.eval (Function.update x v b) = d.eval x :=
  eval_update_of_notMem (hb.notMem hwf) x b

/-- Canonicity: equal functions have equal diagrams. -/
theorem eq_of_eval {m : Mgr} : (a b : AD) → a.WF m → b.WF m → (∀ x, a.eval x = b.eval x) → a = b
  | const p, const q, _, _, h => by
      have := h (fun _ => true)
      simp only [eval] at this
      rw [this]
  | const p, node w t e, _, hb, h => by
      obtain ⟨ht, he, htb, heb, hne⟩ := hb
      exfalso
      apply hne
      apply eq_of_eval t e ht he
      intro x
      have h1 := h (Function.update x w true)
      have h2 := h (Function.update x w false)
      simp only [eval, Function.update_self, if_true, htb.eval_update ht] at h1
      simp only [eval, Function.update_self, heb.eval_update he] at h2
      rw [← h1]
      simpa using h2
  | node w t e, const p, ha, _, h => by
      obtain ⟨ht, he, htb, heb, hne⟩ := ha
      exfalso
      apply hne
      apply eq_of_eval t e ht he
      intro x
      have h1 := h (Function.update x w true)
      have h2 := h (Function.update x w false)
      simp only [eval, Function.update_self, if_true, htb.eval_update ht] at h1
      simp only [eval, Function.update_self, heb.eval_update he] at h2
      rw [h1]
      simpa using h2.symm
  | node v t e, node w t' e', ha, hb, h => by
      have ha' := ha
      have hb' := hb
      obtain ⟨ht, he, htb, heb, hne⟩ := ha
      obtain ⟨ht', he', htb', heb', hne'⟩ := hb
      rcases lt_trichotomy (m.lvl v) (m.lvl w) with hlt | heq | hgt
      · exfalso
        apply hne
        apply eq_of_eval t e ht he
        intro x
        have hB : (node w t' e').Below m (m.lvl v) := hlt
        have h1 := h (Function.update x v true)
        have h2 := h (Function.update x v false)
        rw [hB.eval_update hb'] at h1 h2
        rw [← h2] at h1
        simpa [eval, htb.eval_update ht, heb.eval_update he] using h1
      · have := m.inj _ _ heq
        subst this
        have e1 : t = t' := eq_of_eval t t' ht ht' (fun x => by
          have := h (Function.update x v true)
          simpa [eval, htb.eval_update ht, htb'.eval_update ht'] using this)
        have e2 : e = e' := eq_of_eval e e' he he' (fun x => by
          have := h (Function.update x v false)
          simpa [eval, heb.eval_update he, heb'.eval_update he'] using this)
        rw [e1, e2]
      · exfalso
        apply hne'
        apply eq_of_eval t' e' ht' he'
        intro x
        have hA : (node v t e).Below m (m.lvl w) := hgt
        have h1 := h (Function.update x w true)
        have h2 := h (Function.update x w false)
        rw [hA.eval_update ha'] at h1 h2
        rw [h1] at h2
        simpa [eval, htb'.eval_update ht', heb'.eval_update he'] using h2
termination_by a b => a.size + b.size
decreasing_by all_goals simp only [size]; omega

theorem eval_mk' (v : Nat) (a b : AD) (x : Asg) :
    (mk' v a b).eval x = if x v then a.eval x else b.eval x := by
  unfold mk'
  split
  · rename_i h; rw [h]; simp
  · rfl

theorem wf_mk' {m : Mgr} {v : Nat} {a b : AD} (ha : a.WF m) (hb : b.WF m)
    (hav : a.Below m (m.lvl v)) (hbv : b.Below m (m.lvl v)) : (mk' v a b).WF m := by
  unfold mk'
  split
  · exact ha
  · exact ⟨ha, hb, hav, hbv, ‹_›⟩

theorem below_mk' {m : Mgr} {l v : Nat} {a b : AD} (ha : a.Below m (m.lvl v))
    (h : l < m.lvl v) : (mk' v a b).Below m l := by
  unfold mk'
  split
  · exact ha.mono h.le
  · exact h

theorem cof_wf {m : Mgr} {a : AD} (ha : a.WF m) (v : Nat) (b : Bool) : (a.cof v b).WF m := by
  cases a with
  | const => exact ha
  | node w t e =>
    simp only [cof]
    split
    · split
      · exact ha.1
      · exact ha.2.1
    · exact ha

theorem cof_eval {m : Mgr} {a : AD} (ha : a.WF m) {v : Nat}
    (hv : a.Below m (m.lvl v) ∨ ∃ t e, a = node v t e) (b : Bool) (x : Asg) :
    (a.cof v b).eval x = a.eval (Function.update x v b) := by
  cases a with
  | const => rfl
  | node w t e =>
    simp only [cof]
    split
    · rename_i h; subst h
      obtain ⟨ht, he, htb, heb, _⟩ := ha
      cases b <;> simp [eval, htb.eval_update ht, heb.eval_update he]
    · rename_i h
      rcases hv with hv | ⟨t', e', h'⟩
      · rw [hv.eval_update ha]
      · simp only [node.injEq] at h'
        exact absurd h'.1 h

theorem cof_below {m : Mgr} {a : AD} (ha : a.WF m) {v : Nat} (b : Bool)
    (h : (a.Below m (m.lvl v)) ∨ ∃ t e, a = node v t e) : (a.cof v b).Below m (m.lvl v) := by
  rcases h with h | ⟨t, e, h⟩
  · cases a with
    | const => trivial
    | node w t e =>
      simp only [cof]
      split
      · rename_i hw; subst hw; exact absurd h (lt_irrefl _)
      · exact h
  · subst h
    simp only [cof, if_true]
    cases b
    · exact ha.2.2.2.1
    · exact ha.2.2.1

theorem cof_below_of_below {m : Mgr} {a : AD} (ha : a.WF m) {v l : Nat} (b : Bool)
    (hl : a.Below m l) : (a.cof v b).Below m l := by
  cases a with
  | const => trivial
  | node w t e =>
    simp only [cof]
    have hl' : l < m.lvl w := hl
    split
    · split
      · exact ha.2.2.1.mono hl'.le
      · exact ha.2.2.2.1.mono hl'.le
    · exact hl

theorem cof_size_le (a : AD) (v : Nat) (b : Bool) : (a.cof v b).size ≤ a.size := by
  cases a with
  | const => exact le_refl _
  | node w t e =>
    simp only [cof]
    split
    · split <;> simp only [size] <;> omega
    · exact le_refl _

theorem cof_size_lt (a : AD) (v : Nat) (b : Bool) (h : ∃ t e, a = node v t e) :
    (a.cof v b).size < a.size := by
  obtain ⟨t, e, h⟩ := h
  subst h
  simp only [cof, if_true]
  split <;> simp only [size] <;> omega

theorem top2_spec {m : Mgr} {a b : AD} {v : Nat} (h : top2 m a b = some v) :
    ((a.Below m (m.lvl v)) ∨ ∃ t e, a = node v t e) ∧
    ((b.Below m (m.lvl v)) ∨ ∃ t e, b = node v t e) ∧
    ((∃ t e, a = node v t e) ∨ (∃ t e, b = node v t e)) := by
  cases a with
  | const p =>
    cases b with
    | const q => simp [top2] at h
    | node w t e =>
      simp only [top2, Option.some.injEq] at h; subst h
      exact ⟨.inl trivial, .inr ⟨_, _, rfl⟩, .inr ⟨_, _, rfl⟩⟩
  | node u t e =>
    cases b with
    | const q =>
      simp only [top2, Option.some.injEq] at h; subst h
      exact ⟨.inr ⟨_, _, rfl⟩, .inl trivial, .inl ⟨_, _, rfl⟩⟩
    | node w t' e' =>
      simp only [top2, Option.some.injEq] at h
      split at h
      · subst h
        refine ⟨.inr ⟨_, _, rfl⟩, ?_, .inl ⟨_, _, rfl⟩⟩
        rename_i hle
        rcases lt_or_eq_of_le hle with h1 | h1
        · exact .inl h1
        · have := m.inj _ _ h1; subst this
          exact .inr ⟨_, _, rfl⟩
      · subst h
        rename_i hle
        exact ⟨.inl (not_le.mp hle), .inr ⟨_, _, rfl⟩, .inr ⟨_, _, rfl⟩⟩

theorem top2_level {m : Mgr} {a b : AD} {v l : Nat} (h : top2 m a b = some v)
    (ha : a.Below m l) (hb : b.Below m l) : l < m.lvl v := by
  obtain ⟨_, _, h3⟩ := top2_spec h
  rcases h3 with ⟨t, e, rfl⟩ | ⟨t, e, rfl⟩
  · exact ha
  · exact hb

theorem top2_none {m : Mgr} {a b : AD} (h : top2 m a b = none) :
    a = const a.value ∧ b = const b.value := by
  cases a <;> cases b <;> simp_all [top2, value]

theorem applyF_spec {m : Mgr} {op : ℚ → ℚ → ℚ} : (k : Nat) → (a b : AD) → a.WF m → b.WF m →
    a.size + b.size ≤ k →
    (applyF m op k a b).WF m ∧ (∀ l, a.Below m l → b.Below m l → (applyF m op k a b).Below m l) ∧
      ∀ x, (applyF m op k a b).eval x = op (a.eval x) (b.eval x)
  | 0, a, b, ha, hb, hk => by
      cases a with
      | const p => cases b with
        | const q => exact ⟨trivial, fun _ _ _ => trivial, fun x => rfl⟩
        | node w t e => simp [size] at hk
      | node w t e => simp [size] at hk
  | k + 1, a, b, ha, hb, hk => by
      simp only [applyF]
      split
      · rename_i h
        obtain ⟨h1, h2⟩ := top2_none h
        rw [h1, h2]
        exact ⟨trivial, fun _ _ _ => trivial, fun x => rfl⟩
      · rename_i v h
        obtain ⟨hA, hB, hor⟩ := top2_spec h
        have hsz : ∀ c, (a.cof v c).size + (b.cof v c).size ≤ k := by
          intro c
          have h1 := cof_size_le a v c
          have h2 := cof_size_le b v c
          rcases hor with h3 | h3
          · have := cof_size_lt a v c h3; omega
          · have := cof_size_lt b v c h3; omega
        obtain ⟨w1, b1, e1⟩ := applyF_spec (op := op) k (a.cof v true) (b.cof v true) (cof_wf ha v true)
          (cof_wf hb v true) (hsz true)
        obtain ⟨w2, b2, e2⟩ := applyF_spec (op := op) k (a.cof v false) (b.cof v false)
          (cof_wf ha v false) (cof_wf hb v false) (hsz false)
        have bv1 := b1 (m.lvl v) (cof_below ha true hA) (cof_below hb true hB)
        have bv2 := b2 (m.lvl v) (cof_below ha false hA) (cof_below hb false hB)
        refine ⟨wf_mk' w1 w2 bv1 bv2, fun l hal hbl => below_mk' bv1 (top2_level h hal hbl), fun x => ?_⟩
        rw [eval_mk', e1, e2, cof_eval ha hA, cof_eval ha hA, cof_eval hb hB, cof_eval hb hB]
        by_cases hx : x v = true
        · rw [if_pos hx]
          have : Function.update x v true = x := by rw [← hx, Function.update_eq_self]
          rw [this]
        · rw [if_neg hx]
          have hx' : x v = false := by simpa using hx
          have : Function.update x v false = x := by rw [← hx', Function.update_eq_self]
          rw [this]

theorem ofDD_spec {m : Mgr} : (d : DD) → d.WF m → (neg : Bool) →
    (ofDD d neg).WF m ∧ (∀ l, d.Below m l → (ofDD d neg).Below m l) ∧
      ∀ x, (ofDD d neg).eval x = if (neg ^^ d.eval x) then 1 else 0
  | .one, _, neg => ⟨trivial, fun _ _ => trivial, fun x => by cases neg <;> rfl⟩
  | .node v t c e, h, neg => by
      obtain ⟨ht, he, htb, heb, _⟩ := h
      obtain ⟨w1, b1, e1⟩ := ofDD_spec t ht neg
      obtain ⟨w2, b2, e2⟩ := ofDD_spec e he (neg ^^ c)
      refine ⟨wf_mk' w1 w2 (b1 _ htb) (b2 _ heb), fun l hl => below_mk' (b1 _ htb) hl, fun x => ?_⟩
      rw [ofDD, eval_mk', e1, e2, DD.eval]
      by_cases hx : x v = true <;> simp [hx]

end AD

/-- A CUDD `ADD` object: a handle to a reduced, ordered diagram. -/
structure ADD (m : Mgr) where
  d : AD
  wf : d.WF m

namespace ADD

variable {m : Mgr}

/-- The function of the handle. -/
def eval (f : ADD m) (x : Asg) : ℚ := f.d.eval x

/-- `Cudd::constant`, `addZero`, `addOne`. -/
def const (q : ℚ) : ADD m := ⟨.const q, trivial⟩

/-- `Cudd_addApply`. -/
def apply (op : ℚ → ℚ → ℚ) (f g : ADD m) : ADD m :=
  ⟨AD.apply m op f.d g.d, (AD.applyF_spec _ _ _ f.wf g.wf le_rfl).1⟩

/-- `BDD::Add`. -/
def ofBDD (f : BDD m) : ADD m := ⟨AD.ofDD f.edge.n f.edge.neg, (AD.ofDD_spec _ f.wf _).1⟩

/-- `ADD::operator+`. -/
def add (f g : ADD m) : ADD m := apply (· + ·) f g
/-- `ADD::operator-`. -/
def sub (f g : ADD m) : ADD m := apply (· - ·) f g
/-- `ADD::operator*`. -/
def mul (f g : ADD m) : ADD m := apply (· * ·) f g
/-- `ADD::Divide`; abo only divides by diagrams whose values are at least 1. -/
def div (f g : ADD m) : ADD m := apply (· / ·) f g
/-- `ADD::Maximum`. -/
def maximum (f g : ADD m) : ADD m := apply max f g

/-- `ADD::SupportIndices`. -/
def supportIndices (f : ADD m) : List Nat := f.d.vars.dedup

/-- `Cudd_addFindMax`: the largest terminal. -/
def _root_.Verif.AD.findMax : AD → ℚ
  | .const q => q
  | .node _ t e => max t.findMax e.findMax

/-- `ADD::FindMax`. -/
def findMax (f : ADD m) : ADD m := const f.d.findMax

@[simp] theorem eval_const (q : ℚ) (x : Asg) : (const q : ADD m).eval x = q := rfl
@[simp] theorem eval_apply (op : ℚ → ℚ → ℚ) (f g : ADD m) (x : Asg) :
    (apply op f g).eval x = op (f.eval x) (g.eval x) :=
  (AD.applyF_spec _ _ _ f.wf g.wf le_rfl).2.2 x
@[simp] theorem eval_ofBDD (f : BDD m) (x : Asg) : (ofBDD f).eval x = if f.eval x then 1 else 0 :=
  (AD.ofDD_spec _ f.wf _).2.2 x
@[simp] theorem eval_add (f g : ADD m) (x : Asg) : (add f g).eval x = f.eval x + g.eval x := eval_apply _ _ _ _
@[simp] theorem eval_sub (f g : ADD m) (x : Asg) : (sub f g).eval x = f.eval x - g.eval x := eval_apply _ _ _ _
@[simp] theorem eval_mul (f g : ADD m) (x : Asg) : (mul f g).eval x = f.eval x * g.eval x := eval_apply _ _ _ _
@[simp] theorem eval_div (f g : ADD m) (x : Asg) : (div f g).eval x = f.eval x / g.eval x := eval_apply _ _ _ _
@[simp] theorem eval_maximum (f g : ADD m) (x : Asg) :
    (maximum f g).eval x = max (f.eval x) (g.eval x) := eval_apply _ _ _ _

/-- Canonicity. -/
theorem ext_eval {f g : ADD m} (h : ∀ x, f.eval x = g.eval x) : f = g := by
  have := AD.eq_of_eval f.d g.d f.wf g.wf h
  cases f; cases g; simp_all

end ADD

/-- Every terminal of a reduced ordered diagram is reached by some input. -/
theorem AD.mem_subs_const {m : Mgr} {q : ℚ} : {d : AD} → d.WF m →
    (AD.const q ∈ d.subs ↔ ∃ x, d.eval x = q)
  | .const p, _ => by
      simp only [AD.subs, List.mem_singleton, AD.const.injEq, AD.eval, exists_const]
      exact eq_comm
  | .node v t e, h => by
      obtain ⟨ht, he, htb, heb, _⟩ := h
      have h1 := AD.mem_subs_const (q := q) ht
      have h2 := AD.mem_subs_const (q := q) he
      simp only [AD.subs, List.mem_cons, reduceCtorEq, false_or, List.mem_append, h1, h2, AD.eval]
      constructor
      · rintro (⟨x, hx⟩ | ⟨x, hx⟩)
        · exact ⟨Function.update x v true, by simp [htb.eval_update ht, hx]⟩
        · exact ⟨Function.update x v false, by simp [heb.eval_update he, hx]⟩
      · rintro ⟨x, hx⟩
        by_cases hv : x v = true
        · exact .inl ⟨x, by simpa [hv] using hx⟩
        · exact .inr ⟨x, by simpa [hv] using hx⟩

theorem AD.findMax_spec : (d : AD) → .const d.findMax ∈ d.subs ∧ ∀ q, .const q ∈ d.subs → q ≤ d.findMax
  | .const p => ⟨by simp [AD.subs, AD.findMax], fun q h => by
      simp only [AD.subs, List.mem_singleton, AD.const.injEq] at h
      rw [h]; exact le_rfl⟩
  | .node v t e => by
      obtain ⟨h1, h2⟩ := AD.findMax_spec t
      obtain ⟨h3, h4⟩ := AD.findMax_spec e
      constructor
      · simp only [AD.subs, AD.findMax, List.mem_cons, reduceCtorEq, false_or, List.mem_append]
        rcases max_choice t.findMax e.findMax with h | h <;> rw [h]
        · exact .inl h1
        · exact .inr h3
      · intro q hq
        simp only [AD.subs, List.mem_cons, reduceCtorEq, false_or, List.mem_append] at hq
        rcases hq with h | h
        · exact (h2 q h).trans (le_max_left _ _)
        · exact (h4 q h).trans (le_max_right _ _)

end Verif

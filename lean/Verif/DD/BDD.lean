import Verif.Outcome
import Verif.DD.Node
import Mathlib.Data.Rat.Floor
import Mathlib.Data.List.Dedup
import Mathlib.Data.List.MinMax

/-!
# The CUDD `BDD` class as used by abo

`BDD m` is a CUDD `BDD` object of manager `m`: a handle to a reduced, ordered
diagram.  Only the operations abo calls are modelled.
-/

namespace Verif

/-- A CUDD `BDD` object (`#include <cudd/cplusplus/cuddObj.hh>`,
`/repo/src/util/cudd_helpers.hpp`).  Every handle CUDD hands out is reduced and ordered. -/
structure BDD (m : Mgr) where
  edge : Edge
  wf : edge.n.WF m

namespace BDD

variable {m : Mgr}

instance : DecidableEq (BDD m) := fun a b =>
  if h : a.edge = b.edge then .isTrue (by cases a; cases b; simp_all)
  else .isFalse (fun e => h (by rw [e]))

/-- The Boolean function of the handle. -/
def eval (f : BDD m) (x : Asg) : Bool := f.edge.eval x

/-- `Cudd::bddOne()`. -/
def one : BDD m := ⟨Edge.one, trivial⟩
/-- `Cudd::bddZero()`. -/
def zero : BDD m := ⟨Edge.zero, trivial⟩
/-- `Cudd::bddVar(int)`. -/
def var (v : Nat) : BDD m :=
  ⟨Edge.mk' v Edge.one Edge.zero, Edge.wf_mk' trivial trivial trivial trivial⟩
/-- `BDD::operator!`. -/
def not (f : BDD m) : BDD m := ⟨f.edge.not, f.wf⟩
/-- `BDD::operator&`, `operator*`. -/
def and (f g : BDD m) : BDD m := ⟨Edge.apply m Bool.and f.edge g.edge, Edge.wf_apply _ f.wf g.wf⟩
/-- `BDD::operator|`, `operator+`. -/
def or (f g : BDD m) : BDD m := ⟨Edge.apply m Bool.or f.edge g.edge, Edge.wf_apply _ f.wf g.wf⟩
/-- `BDD::operator^`. -/
def xor (f g : BDD m) : BDD m := ⟨Edge.apply m Bool.xor f.edge g.edge, Edge.wf_apply _ f.wf g.wf⟩
/-- `Cudd_bddIte`, as a combination of the above (the result is canonical anyway). -/
def ite (f g h : BDD m) : BDD m := (f.and g).or (f.not.and h)

/-- `BDD::IsZero`. -/
def isZero (f : BDD m) : Bool := f.edge = Edge.zero
/-- `BDD::IsOne`. -/
def isOne (f : BDD m) : Bool := f.edge = Edge.one

/-- `BDD::operator<=`, `Cudd_bddLeq`: implication. -/
def leq (f g : BDD m) : Bool := (f.and g.not).isZero
/-- `BDD::operator>` of cuddObj: `other <= this` and the nodes differ. -/
def gt (f g : BDD m) : Bool := g.leq f && !decide (f.edge = g.edge)

/-- `BDD::SupportIndices` / `Cudd_SupportIndices`: the indices occurring in the diagram, each once
(the order of the list is not used by abo: it takes the maximum or the length). -/
def supportIndices (f : BDD m) : List Nat := f.edge.n.vars.dedup
/-- `BDD::SupportSize`. -/
def supportSize (f : BDD m) : Nat := f.supportIndices.length

end BDD

/-- Fraction of satisfying assignments of a regular node, the recursion of
`Cudd_CountMinterm` with a bound of 1. -/
def DD.frac : DD → ℚ
  | .one => 1
  | .node _ t c e => (t.frac + (if c then 1 - e.frac else e.frac)) / 2

/-- Fraction of satisfying assignments of a handle. -/
def Edge.frac (a : Edge) : ℚ := if a.neg then 1 - a.n.frac else a.n.frac

namespace BDD
variable {m : Mgr}

/-- `BDD::CountMinterm(nvars)`: CUDD starts from `2^nvars` at the terminal and averages upwards,
so the result is the satisfying fraction times `2^nvars` (exact rational here, a `double` in CUDD). -/
def countMinterm (f : BDD m) (nvars : Nat) : ℚ := f.edge.frac * 2 ^ nvars

end BDD

/-- All sub-diagrams of a node, including itself and the terminal. -/
def DD.subs : DD → List DD
  | .one => [.one]
  | .node v t c e => .node v t c e :: (t.subs ++ e.subs)

/-- `Cudd::nodeCount(std::vector<BDD>)` = `Cudd_SharingSize`: the number of distinct regular nodes
reachable from the roots (the terminal counts). -/
def nodeCount {m : Mgr} (fs : List (BDD m)) : Nat := (fs.flatMap (fun f => f.edge.n.subs)).dedup.length

/-- `BDD::Eval(int*)` = `Cudd_Eval` on a regular node: walks the diagram reading `inputs[index]`;
reading behind the array is undefined behaviour. -/
def DD.evalIn (inp : List Nat) : DD → Except Fault Bool
  | .one => .ok true
  | .node v t c e => do
      let b ← vget inp v
      if b ≠ 0 then t.evalIn inp else
        let r ← e.evalIn inp
        .ok (c ^^ r)

/-- `BDD::Eval(inputs).IsOne()`. -/
def BDD.evalIn {m : Mgr} (f : BDD m) (inp : List Nat) : Except Fault Bool := do
  let r ← f.edge.n.evalIn inp
  .ok (f.edge.neg ^^ r)

namespace BDD
variable {m : Mgr}

/-! ## Semantics of the operations -/

@[simp] theorem eval_one (x : Asg) : (one : BDD m).eval x = true := rfl
@[simp] theorem eval_zero (x : Asg) : (zero : BDD m).eval x = false := rfl
@[simp] theorem eval_var (v : Nat) (x : Asg) : (var v : BDD m).eval x = x v := by
  simp only [eval, var, Edge.eval_mk']
  cases x v <;> rfl
@[simp] theorem eval_not (f : BDD m) (x : Asg) : f.not.eval x = !f.eval x := Edge.eval_not _ _
@[simp] theorem eval_and (f g : BDD m) (x : Asg) : (f.and g).eval x = (f.eval x && g.eval x) :=
  Edge.eval_apply _ f.wf g.wf x
@[simp] theorem eval_or (f g : BDD m) (x : Asg) : (f.or g).eval x = (f.eval x || g.eval x) :=
  Edge.eval_apply _ f.wf g.wf x
@[simp] theorem eval_xor (f g : BDD m) (x : Asg) : (f.xor g).eval x = (f.eval x ^^ g.eval x) :=
  Edge.eval_apply _ f.wf g.wf x
@[simp] theorem eval_ite (f g h : BDD m) (x : Asg) :
    (f.ite g h).eval x = if f.eval x then g.eval x else h.eval x := by
  simp only [ite, eval_or, eval_and, eval_not]
  cases f.eval x <;> simp

theorem ext_edge {f g : BDD m} (h : f.edge = g.edge) : f = g := by
  cases f; cases g; simp_all

/-- Canonicity: equal functions have equal handles. -/
theorem ext_eval {f g : BDD m} (h : ∀ x, f.eval x = g.eval x) : f = g :=
  ext_edge (Edge.eq_of_eval f.wf g.wf h)

theorem eq_iff_eval {f g : BDD m} : f = g ↔ ∀ x, f.eval x = g.eval x :=
  ⟨fun h x => by rw [h], ext_eval⟩

theorem isZero_iff {f : BDD m} : f.isZero = true ↔ ∀ x, f.eval x = false := by
  constructor
  · intro h x
    have : f = zero := ext_edge (of_decide_eq_true h)
    rw [this]; rfl
  · intro h
    have : f = zero := ext_eval h
    rw [this]; simp [isZero, zero]

theorem isZero_false_iff {f : BDD m} : f.isZero = false ↔ ∃ x, f.eval x = true := by
  rw [← not_iff_not, Bool.not_eq_false, isZero_iff]
  push Not
  constructor
  · intro h x; simp [h x]
  · intro h x; simpa using h x

theorem isOne_iff {f : BDD m} : f.isOne = true ↔ ∀ x, f.eval x = true := by
  constructor
  · intro h x
    have : f = one := ext_edge (of_decide_eq_true h)
    rw [this]; rfl
  · intro h
    have : f = one := ext_eval h
    rw [this]; simp [isOne, one]

theorem leq_iff {f g : BDD m} : f.leq g = true ↔ ∀ x, f.eval x = true → g.eval x = true := by
  rw [leq, isZero_iff]
  refine forall_congr' fun x => ?_
  simp only [eval_and, eval_not]
  cases f.eval x <;> cases g.eval x <;> simp

theorem gt_iff {f g : BDD m} : f.gt g = true ↔
    (∀ x, g.eval x = true → f.eval x = true) ∧ ∃ x, f.eval x = true ∧ g.eval x = false := by
  simp only [gt, Bool.and_eq_true, leq_iff, Bool.not_eq_true', decide_eq_false_iff_not]
  constructor
  · rintro ⟨h, hne⟩
    refine ⟨h, ?_⟩
    by_contra hcon
    push Not at hcon
    apply hne
    have : f = g := ext_eval fun x => by
      cases hf : f.eval x
      · cases hg : g.eval x
        · rfl
        · rw [h x hg] at hf; exact hf.symm
      · simpa using (hcon x hf)
    rw [this]
  · rintro ⟨h, x, hf, hg⟩
    refine ⟨h, fun he => ?_⟩
    have : f = g := ext_edge he
    rw [this, hg] at hf
    exact absurd hf (by simp)

/-- Agreement on the variables of the diagram. -/
theorem eval_congr {f : BDD m} {x y : Asg} (h : ∀ v ∈ f.supportIndices, x v = y v) :
    f.eval x = f.eval y := by
  simp only [eval, Edge.eval]
  rw [DD.eval_congr (fun v hv => h v (by simpa [supportIndices] using hv))]

/-- In a reduced diagram the function depends on every variable that occurs. -/
theorem _root_.Verif.DD.depends {m : Mgr} {d : DD} (hwf : d.WF m) {v : Nat} (hv : v ∈ d.vars) :
    ∃ x, d.eval (Function.update x v true) ≠ d.eval (Function.update x v false) := by
  induction d with
  | one => simp [DD.vars] at hv
  | node w t c e iht ihe =>
    have hwf' := hwf
    obtain ⟨ht, he, htb, heb, hr⟩ := hwf
    by_cases hvw : v = w
    · subst hvw
      by_contra hcon
      push Not at hcon
      have e1 : ∀ x, t.eval x = (c ^^ e.eval x) := fun x => by
        have := hcon x
        simpa [DD.eval, htb.eval_update ht, heb.eval_update he] using this
      have hc : c = false := by
        have := e1 (fun _ => true)
        simpa [DD.eval_allTrue] using this
      subst hc
      exact hr ⟨rfl, DD.eq_of_eval _ _ ht he (fun x => by simpa using e1 x)⟩
    · simp only [DD.vars, List.mem_cons, List.mem_append, hvw, false_or] at hv
      rcases hv with hv | hv
      · obtain ⟨x, hx⟩ := iht ht hv
        refine ⟨Function.update x w true, ?_⟩
        have hne : w ≠ v := fun h => hvw h.symm
        rw [Function.update_comm hne, Function.update_comm hne]
        simpa [DD.eval, htb.eval_update ht] using hx
      · obtain ⟨x, hx⟩ := ihe he hv
        refine ⟨Function.update x w false, ?_⟩
        have hne : w ≠ v := fun h => hvw h.symm
        rw [Function.update_comm hne, Function.update_comm hne]
        simpa [DD.eval, heb.eval_update he] using hx

/-- `SupportIndices` lists exactly the variables the function depends on. -/
theorem mem_supportIndices {f : BDD m} {v : Nat} : v ∈ f.supportIndices ↔
    ∃ x, f.eval (Function.update x v true) ≠ f.eval (Function.update x v false) := by
  constructor
  · intro h
    obtain ⟨x, hx⟩ := DD.depends f.wf (v := v) (by simpa [supportIndices] using h)
    exact ⟨x, by simpa [eval, Edge.eval] using hx⟩
  · rintro ⟨x, hx⟩
    by_contra hcon
    apply hx
    apply eval_congr
    intro w hw
    have : w ≠ v := fun e => hcon (e ▸ hw)
    simp [Function.update, this]

end BDD

/-- Reading the array of `int`s as an assignment (behind the end: irrelevant, `false`). -/
def asgOf (inp : List Nat) : Asg := fun v => (inp.getD v 0) ≠ 0

theorem vget_eq {α} : ∀ (l : List α) (i : Nat) (d : α), i < l.length → vget l i = .ok (l.getD i d)
  | [], i, d, h => by simp at h
  | a :: as, 0, d, _ => rfl
  | a :: as, i + 1, d, h => by
      have := vget_eq as i d (by simpa using h)
      simpa [vget] using this

theorem vget_error {α} : ∀ (l : List α) (i : Nat), l.length ≤ i → vget l i = .error .ub
  | [], i, _ => rfl
  | a :: as, 0, h => by simp at h
  | a :: as, i + 1, h => vget_error as i (by simpa using h)

theorem DD.evalIn_eq {inp : List Nat} {d : DD} (h : ∀ v ∈ d.vars, v < inp.length) :
    d.evalIn inp = .ok (d.eval (asgOf inp)) := by
  induction d with
  | one => rfl
  | node v t c e iht ihe =>
    simp only [DD.vars, List.mem_cons, List.mem_append] at h
    have h1 := vget_eq inp v 0 (h v (.inl rfl))
    have h2 := iht (fun w hw => h w (.inr (.inl hw)))
    have h3 := ihe (fun w hw => h w (.inr (.inr hw)))
    simp only [DD.evalIn, h1, h2, h3, DD.eval, asgOf, bind, Except.bind]
    split <;> simp_all

theorem BDD.evalIn_eq {m : Mgr} {inp : List Nat} {f : BDD m}
    (h : ∀ v ∈ f.supportIndices, v < inp.length) : f.evalIn inp = .ok (f.eval (asgOf inp)) := by
  have := DD.evalIn_eq (inp := inp) (d := f.edge.n) (fun v hv => h v (by simpa [supportIndices] using hv))
  simp [BDD.evalIn, this, bind, Except.bind, BDD.eval, Edge.eval]

end Verif

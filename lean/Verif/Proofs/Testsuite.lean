import Verif.Model.Testsuite
import Verif.Proofs.Mean
import Mathlib.Order.Interval.Finset.Nat

/-! # Lemmas for the tests: `Constrain`, `Cofactor`, error rates of conjunctions and disjunctions -/

namespace Verif

variable {m : Mgr}

/-- `c` is the conjunction of the literals that give the variables of `S` the values `σ`. -/
def CubeOf (c : BDD m) (S : Finset Nat) (σ : Asg) : Prop := ∀ x, c.eval x = true ↔ ∀ v ∈ S, x v = σ v

/-- `x` with the variables of `S` replaced. -/
def setOn (S : Finset Nat) (σ x : Asg) : Asg := fun v => if v ∈ S then σ v else x v

theorem child_eval {f : BDD m} {v : Nat} (h : f.edge.n.Below m (m.lvl v) ∨ ∃ t c e, f.edge.n = .node v t c e)
    (b : Bool) (x : Asg) : (f.child v b).eval x = f.eval (Function.update x v b) :=
  Edge.cof_eval f.wf (fun hm => h.resolve_left (fun hb => absurd hm (hb.notMem f.wf))) b x

theorem CubeOf.setOn {c : BDD m} {S : Finset Nat} {σ : Asg} (h : CubeOf c S σ) (x : Asg) :
    c.eval (setOn S σ x) = true := (h _).mpr (fun v hv => by simp [Verif.setOn, hv])

theorem CubeOf.not_zero {c : BDD m} {S : Finset Nat} {σ : Asg} (h : CubeOf c S σ) : c.isZero = false :=
  BDD.isZero_false_iff.mpr ⟨_, h.setOn σ⟩

theorem CubeOf.one_iff {c : BDD m} {S : Finset Nat} {σ : Asg} (h : CubeOf c S σ) : c.isOne = true ↔ S = ∅ := by
  rw [BDD.isOne_iff]
  constructor
  · intro h1
    by_contra hne
    obtain ⟨v, hv⟩ := Finset.nonempty_iff_ne_empty.mpr hne
    have := (h (fun w => !σ w)).mp (h1 _) v hv
    cases hs : σ v <;> simp [hs] at this
  · rintro rfl x
    exact (h x).mpr (by simp)

theorem isConst_eval {f : BDD m} (h : f.edge.isConst = true) (x y : Asg) : f.eval x = f.eval y := by
  unfold Edge.isConst at h
  unfold BDD.eval Edge.eval
  split at h
  · rename_i h'; rw [h']; rfl
  · cases h

/-- The children of a cube at a variable that is not one of its literals -/
theorem CubeOf.child_off {c : BDD m} {S : Finset Nat} {σ : Asg} (h : CubeOf c S σ) {v : Nat} (hv : v ∉ S)
    (ht : c.edge.n.Below m (m.lvl v) ∨ ∃ t b e, c.edge.n = .node v t b e) (b : Bool) : c.child v b = c := by
  apply BDD.ext_eval
  intro x
  rw [child_eval ht]
  have e : c.eval (Function.update x v b) = true ↔ c.eval x = true := by
    rw [h, h]
    refine forall_congr' fun w => ?_
    refine imp_congr_right fun hw => ?_
    have hwv : w ≠ v := fun e => hv (e ▸ hw)
    rw [Function.update_of_ne hwv]
  cases h1 : c.eval x <;> cases h2 : c.eval (Function.update x v b) <;> simp_all

theorem CubeOf.child_on {c : BDD m} {S : Finset Nat} {σ : Asg} (h : CubeOf c S σ) {v : Nat} (hv : v ∈ S)
    (ht : c.edge.n.Below m (m.lvl v) ∨ ∃ t b e, c.edge.n = .node v t b e) :
    CubeOf (c.child v (σ v)) (S.erase v) σ := by
  intro x
  rw [child_eval ht, h]
  constructor
  · intro h1 w hw
    have := h1 w (Finset.mem_of_mem_erase hw)
    rwa [Function.update_of_ne (Finset.ne_of_mem_erase hw)] at this
  · intro h1 w hw
    by_cases e : w = v
    · subst e; simp
    · rw [Function.update_of_ne e]
      exact h1 w (Finset.mem_erase.mpr ⟨e, hw⟩)

theorem CubeOf.child_other {c : BDD m} {S : Finset Nat} {σ : Asg} (h : CubeOf c S σ) {v : Nat} (hv : v ∈ S)
    (ht : c.edge.n.Below m (m.lvl v) ∨ ∃ t b e, c.edge.n = .node v t b e) {b : Bool} (hb : b ≠ σ v) :
    (c.child v b).isZero = true := by
  rw [BDD.isZero_iff]
  intro x
  rw [child_eval ht]
  by_contra hc
  have := (h _).mp (by simpa using hc) v hv
  simp only [Function.update_self] at this
  exact hb this

theorem setOn_erase {S : Finset Nat} {σ x : Asg} {v : Nat} (hv : v ∈ S) :
    Function.update (setOn (S.erase v) σ x) v (σ v) = setOn S σ x := by
  funext w
  by_cases e : w = v
  · subst e; simp [setOn, hv]
  · simp [setOn, e]

theorem setOn_update {S : Finset Nat} {σ x : Asg} {v : Nat} (hv : v ∉ S) :
    Function.update (setOn S σ x) v (x v) = setOn S σ x := by
  funext w
  by_cases e : w = v
  · subst e; simp [setOn, hv]
  · simp [e]

theorem child_sizes {f c : BDD m} {v k : Nat} (hk : f.edge.n.size + c.edge.n.size ≤ k + 1)
    (h3 : (∃ t b e, f.edge.n = .node v t b e) ∨ ∃ t b e, c.edge.n = .node v t b e) (b : Bool) :
    (f.child v b).edge.n.size + (c.child v b).edge.n.size ≤ k := by
  have h1 := Edge.cof_size_le f.edge v b
  have h2 := Edge.cof_size_le c.edge v b
  simp only [BDD.child]
  rcases h3 with h | h
  · have := Edge.cof_size_lt f.edge v b h; omega
  · have := Edge.cof_size_lt c.edge v b h; omega

theorem isConst_of_size {f : BDD m} (h : f.edge.n.size = 0) : f.edge.isConst = true := by
  unfold Edge.isConst
  split
  · rfl
  · rename_i h'; rw [h'] at h; simp [DD.size] at h

/-- `Constrain` with a cube replaces the variables of the cube. -/
theorem constrainF_cube : ∀ (k : Nat) (f c : BDD m) (S : Finset Nat) (σ : Asg), CubeOf c S σ →
    f.edge.n.size + c.edge.n.size ≤ k → ∀ x, (constrainF k f c).eval x = f.eval (setOn S σ x)
  | 0, f, c, S, σ, _, hk, x => isConst_eval (f := f) (isConst_of_size (by omega)) _ _
  | k + 1, f, c, S, σ, h, hk, x => by
    unfold constrainF
    split
    · rename_i h1
      rw [h.one_iff] at h1
      subst h1
      rfl
    · rw [if_neg (by simp [h.not_zero])]
      split
      · rename_i hc; exact isConst_eval hc _ _
      · rename_i hconst
        split
        · rename_i e; rw [e, h.setOn]; rfl
        · split
          · rename_i e; rw [e, BDD.eval_not, h.setOn]; rfl
          · split
            · rename_i ht
              have := (Edge.top2_none ht).1
              exact absurd (isConst_of_size (f := f) (by rw [this]; rfl)) hconst
            · rename_i v ht
              obtain ⟨h1, h2, h3⟩ := Edge.top2_spec f.wf c.wf ht
              have hs := child_sizes hk h3
              by_cases hv : v ∈ S
              · have ih := constrainF_cube k (f.child v (σ v)) (c.child v (σ v)) (S.erase v) σ (h.child_on hv h2)
                  (hs _) x
                rw [child_eval h1, setOn_erase hv] at ih
                cases hσ : σ v
                · rw [hσ] at ih
                  rw [if_pos (h.child_other hv h2 (by simp [hσ]))]
                  exact ih
                · rw [hσ] at ih
                  have hn := (h.child_on hv h2).not_zero
                  rw [hσ] at hn
                  rw [if_neg (by simp [hn]), if_pos (h.child_other hv h2 (by simp [hσ]))]
                  exact ih
              · have hz : ∀ b, (c.child v b).isZero = false := fun b => by
                  rw [h.child_off hv h2]; exact h.not_zero
                rw [if_neg (by simp [hz]), if_neg (by simp [hz]), BDD.eval_ite, BDD.eval_var]
                have ih := fun b => constrainF_cube k (f.child v b) (c.child v b) S σ
                  (by rw [h.child_off hv h2]; exact h) (hs b) x
                rw [ih, ih, child_eval h1, child_eval h1, ← setOn_update (x := x) hv]
                cases x v <;> simp

/-- `Constrain` keeps the function where the constraint holds, if it holds anywhere. -/
theorem constrainF_on : ∀ (k : Nat) (f c : BDD m), f.edge.n.size + c.edge.n.size ≤ k → ∀ x, c.eval x = true →
    (constrainF k f c).eval x = f.eval x
  | 0, f, c, hk, x, _ => rfl
  | k + 1, f, c, hk, x, hx => by
    unfold constrainF
    split
    · rfl
    · split
      · rename_i h
        rw [BDD.isZero_iff.mp h x] at hx
        cases hx
      · split
        · rfl
        · split
          · rename_i e; rw [e, hx]; rfl
          · split
            · rename_i e; rw [e, BDD.eval_not, hx]; rfl
            · split
              · rfl
              · rename_i v ht
                obtain ⟨h1, h2, h3⟩ := Edge.top2_spec f.wf c.wf ht
                have hs := child_sizes hk h3
                have hc : ∀ b, x v = b → (c.child v b).eval x = true := fun b hb => by
                  rw [child_eval h2, ← hb, Function.update_eq_self, hx]
                have ih := fun b (hb : x v = b) => constrainF_on k (f.child v b) (c.child v b) (hs b) x (hc b hb)
                have hf : ∀ b, x v = b → (f.child v b).eval x = f.eval x := fun b hb => by
                  rw [child_eval h1, ← hb, Function.update_eq_self]
                have hz : ∀ b, (c.child v b).isZero = true → x v = !b := fun b h => by
                  by_contra hne
                  have := hc b (by cases b <;> cases hv : x v <;> simp_all)
                  rw [BDD.isZero_iff.mp h x] at this
                  cases this
                split
                · rename_i h
                  have := hz true h
                  rw [ih false this, hf false this]
                · split
                  · rename_i h
                    have := hz false h
                    rw [ih true this, hf true this]
                  · rw [BDD.eval_ite, BDD.eval_var]
                    cases hv : x v
                    · simp [ih false hv, hf false hv]
                    · simp [ih true hv, hf true hv]

theorem constrain_cube {c : BDD m} {S : Finset Nat} {σ : Asg} (h : CubeOf c S σ) (f : BDD m) (x : Asg) :
    (constrain f c).eval x = f.eval (setOn S σ x) := constrainF_cube _ f c S σ h le_rfl x

/-- `Cofactor` with a cube does the same. -/
theorem cofactorCubeF_cube : ∀ (k : Nat) (f c : BDD m) (S : Finset Nat) (σ : Asg), CubeOf c S σ →
    f.edge.n.size + c.edge.n.size ≤ k →
    ∃ r, cofactorCubeF k f c = .ok r ∧ ∀ x, r.eval x = f.eval (setOn S σ x)
  | 0, f, c, S, σ, _, hk => ⟨f, rfl, fun x => isConst_eval (isConst_of_size (by omega)) _ _⟩
  | k + 1, f, c, S, σ, h, hk => by
    unfold cofactorCubeF
    split
    · rename_i hc
      refine ⟨f, rfl, fun x => ?_⟩
      rcases Bool.or_eq_true _ _ ▸ hc with hc | hc
      · exact isConst_eval hc _ _
      · rw [h.one_iff] at hc
        subst hc
        rfl
    · rename_i hc
      simp only [Bool.or_eq_true, not_or] at hc
      split
      · rename_i ht
        have := (Edge.top2_none ht).1
        exact absurd (isConst_of_size (f := f) (by rw [this]; rfl)) hc.1
      · rename_i v ht
        obtain ⟨h1, h2, h3⟩ := Edge.top2_spec f.wf c.wf ht
        have hs := child_sizes hk h3
        by_cases hv : v ∈ S
        · have hne : c.child v true ≠ c := fun he => by
            have e1 := child_eval h2 true (Function.update (setOn S σ σ) v (!σ v))
            rw [he, Function.update_idem] at e1
            have e2 : c.eval (Function.update (setOn S σ σ) v (!σ v)) = false := by
              by_contra hcon
              have := (h _).mp (by simpa using hcon) v hv
              simp at this
            cases hσ : σ v
            · have e3 : c.eval (setOn S σ σ) = true := h.setOn σ
              have e4 := child_eval h2 true (setOn S σ σ)
              rw [he, e3] at e4
              have := (h _).mp e4.symm v hv
              simp [hσ] at this
            · rw [e2] at e1
              have e3 : c.eval (Function.update (setOn S σ σ) v true) = true := by
                have e : Function.update (setOn S σ σ) v true = setOn S σ σ := by
                  rw [← hσ]; funext w; by_cases e : w = v
                  · subst e; simp [setOn]
                  · simp [e]
                rw [e]; exact h.setOn σ
              rw [e3] at e1
              cases e1
          rw [if_neg hne]
          obtain ⟨r, hr, ih⟩ := cofactorCubeF_cube k (f.child v (σ v)) (c.child v (σ v)) (S.erase v) σ
            (h.child_on hv h2) (hs _)
          have ih' : ∀ x, r.eval x = f.eval (setOn S σ x) := fun x => by
            rw [ih, child_eval h1, setOn_erase hv]
          have hn := (h.child_on hv h2).not_zero
          cases hσ : σ v
          · rw [hσ] at hr hn
            rw [if_neg (by simp [hn]), if_pos (h.child_other hv h2 (by simp [hσ]))]
            exact ⟨r, hr, ih'⟩
          · rw [hσ] at hr
            rw [if_pos (h.child_other hv h2 (by simp [hσ]))]
            exact ⟨r, hr, ih'⟩
        · have hoff := fun b => h.child_off hv h2 (b := b)
          rw [if_pos (hoff true)]
          obtain ⟨t, ht', iht⟩ := cofactorCubeF_cube k (f.child v true) c S σ h
            (by have := hs true; rwa [hoff] at this)
          obtain ⟨e, he', ihe⟩ := cofactorCubeF_cube k (f.child v false) c S σ h
            (by have := hs false; rwa [hoff] at this)
          refine ⟨_, by simp only [ht', he', bind, Except.bind]; rfl, fun x => ?_⟩
          rw [BDD.eval_ite, BDD.eval_var, iht, ihe, child_eval h1, child_eval h1, ← setOn_update (x := x) hv]
          cases x v <;> simp

theorem cofactorCube_cube {c : BDD m} {S : Finset Nat} {σ : Asg} (h : CubeOf c S σ) (f : BDD m) :
    cofactorCube f c = .ok (constrain f c) := by
  obtain ⟨r, hr, hv⟩ := cofactorCubeF_cube _ f c S σ h le_rfl
  unfold cofactorCube
  rw [if_neg (by simp [h.not_zero]), hr]
  congr 1
  apply BDD.ext_eval
  intro x
  rw [hv, constrain_cube h]

/-- `IsCube` holds for the conjunctions of literals. -/
theorem isCubeN_spec : ∀ (d : DD) (neg : Bool) (wf : d.WF m), isCubeN d neg = true →
    ∃ S σ, CubeOf (⟨⟨neg, d⟩, wf⟩ : BDD m) S σ
  | .one, neg, wf, h => ⟨∅, fun _ => false, fun x => by
      cases neg
      · simp [BDD.eval, Edge.eval, DD.eval]
      · simp [isCubeN] at h⟩
  | .node v t c e, neg, wf, h => by
    have key : ∀ (b : Bool) (n : DD) (k : Bool) (wn : n.WF m) (hn : n.Below m (m.lvl v)),
        (∀ x, (⟨⟨neg, .node v t c e⟩, wf⟩ : BDD m).eval x = if x v = b then (⟨⟨k, n⟩, wn⟩ : BDD m).eval x else false) →
        (∃ S σ, CubeOf (⟨⟨k, n⟩, wn⟩ : BDD m) S σ) →
        ∃ S σ, CubeOf (⟨⟨neg, .node v t c e⟩, wf⟩ : BDD m) S σ := by
      rintro b n k wn hn he ⟨S, σ, hS⟩
      refine ⟨insert v S, Function.update σ v b, fun x => ?_⟩
      rw [he]
      constructor
      · intro h1 w hw
        split at h1
        · rename_i hx
          by_cases e : w = v
          · subst e; simpa using hx
          · rw [Function.update_of_ne e]
            exact (hS x).mp h1 w ((Finset.mem_insert.mp hw).resolve_left e)
        · cases h1
      · intro h1
        have hx : x v = b := by simpa using h1 v (Finset.mem_insert_self _ _)
        rw [if_pos hx]
        -- the child does not depend on `v`
        have hup : (⟨⟨k, n⟩, wn⟩ : BDD m).eval x = (⟨⟨k, n⟩, wn⟩ : BDD m).eval (Function.update x v (σ v)) := by
          simp only [BDD.eval, Edge.eval, hn.eval_update wn]
        rw [hup, hS]
        intro w hw
        by_cases e : w = v
        · subst e; simp
        · rw [Function.update_of_ne e]
          simpa [e] using h1 w (Finset.mem_insert_of_mem hw)
    obtain ⟨ht, he, htb, heb, -⟩ := id wf
    unfold isCubeN at h
    split at h
    · rename_i h1
      refine key true t neg ht htb (fun x => ?_) (isCubeN_spec t neg ht h)
      simp only [Edge.zero, Edge.mk.injEq] at h1
      obtain ⟨h2, h3⟩ := h1
      cases hx : x v
      · simp only [BDD.eval, Edge.eval, DD.eval, hx, h3]
        cases neg <;> cases c <;> simp_all
      · simp [BDD.eval, Edge.eval, DD.eval, hx]
    · split at h
      · rename_i h1
        refine key false e (neg ^^ c) he heb (fun x => ?_) (isCubeN_spec e _ he h)
        simp only [Edge.zero, Edge.mk.injEq] at h1
        obtain ⟨h2, h3⟩ := h1
        cases hx : x v
        · simp [BDD.eval, Edge.eval, DD.eval, hx]
        · simp [BDD.eval, Edge.eval, DD.eval, hx, h2, h3]
      · cases h

/-- Conjunctions of literals are cubes. -/
theorem isCubeN_complete : ∀ (d : DD) (neg : Bool) (wf : d.WF m) (S : Finset Nat) (σ : Asg),
    CubeOf (⟨⟨neg, d⟩, wf⟩ : BDD m) S σ → isCubeN d neg = true
  | .one, neg, wf, S, σ, h => by
    have := h.not_zero
    cases neg
    · rfl
    · simp [BDD.isZero, Edge.zero] at this
  | .node v t c e, neg, wf, S, σ, h => by
    obtain ⟨ht, he, htb, heb, -⟩ := id wf
    have htop : (⟨⟨neg, .node v t c e⟩, wf⟩ : BDD m).edge.n.Below m (m.lvl v) ∨
        ∃ t' b e', (⟨⟨neg, .node v t c e⟩, wf⟩ : BDD m).edge.n = .node v t' b e' := .inr ⟨_, _, _, rfl⟩
    have c1 : (⟨⟨neg, .node v t c e⟩, wf⟩ : BDD m).child v true = ⟨⟨neg, t⟩, ht⟩ :=
      BDD.ext_edge (by simp [BDD.child, Edge.cof])
    have c0 : (⟨⟨neg, .node v t c e⟩, wf⟩ : BDD m).child v false = ⟨⟨neg ^^ c, e⟩, he⟩ :=
      BDD.ext_edge (by simp [BDD.child, Edge.cof])
    have hv : v ∈ S := by
      by_contra hv
      have := h.child_off hv htop true
      rw [c1] at this
      have hs := congrArg (fun b : BDD m => b.edge.n.size) this
      simp [DD.size] at hs
      omega
    have hon := h.child_on hv htop
    have hoff := fun b => h.child_other hv htop (b := b)
    unfold isCubeN
    cases hσ : σ v
    · rw [hσ, c0] at hon
      have hz := hoff true (by simp [hσ])
      rw [c1] at hz
      have hnz := hon.not_zero
      simp only [BDD.isZero, decide_eq_true_eq, decide_eq_false_iff_not] at hz hnz
      rw [if_neg hnz, if_pos hz]
      exact isCubeN_complete e _ he _ _ hon
    · rw [hσ, c1] at hon
      have hz := hoff false (by simp [hσ])
      rw [c0] at hz
      simp only [BDD.isZero, decide_eq_true_eq] at hz
      rw [if_pos hz]
      exact isCubeN_complete t _ ht _ _ hon

theorem isCube_iff (c : BDD m) : c.isCube = true ↔ ∃ S σ, CubeOf c S σ :=
  ⟨fun h => isCubeN_spec _ _ c.wf h, fun ⟨S, σ, h⟩ => isCubeN_complete _ _ c.wf S σ h⟩

/-! ## Means of conjunctions -/

/-- The fraction of the inputs that give the variables of `S` the value `b` -/
theorem mean_all (N : Nat) (b : Bool) (S : Finset Nat) (h : ∀ v ∈ S, v < N) :
    mean N (fun x => if ∀ v ∈ S, x v = b then 1 else 0) = 1 / 2 ^ S.card := by
  induction S using Finset.induction_on with
  | empty => simp [mean_const]
  | insert v S hv ih =>
    have ih' := ih (fun w hw => h w (Finset.mem_insert_of_mem hw))
    rw [mean_split N _ v (h v (Finset.mem_insert_self _ _)), Finset.card_insert_of_notMem hv]
    have e : ∀ (k : Bool) (x : Asg), (∀ w ∈ insert v S, Function.update x v k w = b) ↔ (k = b ∧ ∀ w ∈ S, x w = b) := by
      intro k x
      rw [Finset.forall_mem_insert, Function.update_self]
      refine and_congr_right fun _ => forall_congr' fun w => imp_congr_right fun hw => ?_
      have hwv : w ≠ v := fun e => hv (e ▸ hw)
      rw [Function.update_of_ne hwv]
    simp only [e]
    cases b
    · simp only [Bool.true_eq_false, false_and, if_false, true_and, mean_const]
      rw [ih', pow_succ]; field_simp; ring
    · simp only [Bool.false_eq_true, false_and, if_false, true_and, mean_const]
      rw [ih', pow_succ]; field_simp; ring

/-- The variables from `k` on have the value `b`, but not all of the first `k` -/
theorem mean_rest (n k : Nat) (hk : k ≤ n) (b : Bool) :
    mean n (fun x => if (∀ v, k ≤ v → v < n → x v = b) ∧ ¬ (∀ v < n, x v = b) then 1 else 0) =
      (2 ^ k - 1) / 2 ^ n := by
  have h1 := mean_all n b (Finset.Ico k n) (fun v hv => (Finset.mem_Ico.mp hv).2)
  have h2 := mean_all n b (Finset.range n) (fun v hv => Finset.mem_range.mp hv)
  have e : ∀ x : Asg, (if (∀ v, k ≤ v → v < n → x v = b) ∧ ¬ (∀ v < n, x v = b) then (1 : ℚ) else 0) =
      (if ∀ v ∈ Finset.Ico k n, x v = b then 1 else 0) - (if ∀ v ∈ Finset.range n, x v = b then 1 else 0) := by
    intro x
    have p1 : (∀ v ∈ Finset.Ico k n, x v = b) ↔ ∀ v, k ≤ v → v < n → x v = b := by
      simp only [Finset.mem_Ico]; exact ⟨fun h v a c => h v ⟨a, c⟩, fun h v hv => h v hv.1 hv.2⟩
    have p2 : (∀ v ∈ Finset.range n, x v = b) ↔ ∀ v < n, x v = b := by simp only [Finset.mem_range]
    simp only [p1, p2]
    by_cases hA : ∀ v, k ≤ v → v < n → x v = b
    · by_cases hB : ∀ v < n, x v = b
      · rw [if_neg (by tauto), if_pos hA, if_pos hB]; simp
      · rw [if_pos ⟨hA, hB⟩, if_pos hA, if_neg hB]; simp
    · have hB : ¬ ∀ v < n, x v = b := fun h => hA (fun v _ hv => h v hv)
      rw [if_neg (by tauto), if_neg hA, if_neg hB]; simp
  rw [mean_congr n e, mean_sub, h1, h2, Nat.card_Ico, Finset.card_range]
  have : (2 : ℚ) ^ n = 2 ^ k * 2 ^ (n - k) := by rw [← pow_add]; congr 1; omega
  rw [this]
  have := pow_ne_zero k (two_ne_zero (α := ℚ))
  have := pow_ne_zero (n - k) (two_ne_zero (α := ℚ))
  field_simp

end Verif

import Verif.Model.Papers
import Verif.Proofs.Operators
import Verif.Spec

/-! # Helper lemmas for C81 -/

namespace Verif

variable {m : Mgr}

theorem DD.WF.ofId (hm : m.Mono) : {d : DD} → d.WF Mgr.id → d.WF m
  | .one, _ => trivial
  | .node v t c e, h => by
      simp only [DD.WF] at h ⊢
      refine ⟨DD.WF.ofId hm h.1, DD.WF.ofId hm h.2.1, ?_, ?_, h.2.2.2.2⟩
      · have := h.2.2.1
        cases t with
        | one => trivial
        | node w _ _ _ => exact hm _ _ this
      · have := h.2.2.2.1
        cases e with
        | one => trivial
        | node w _ _ _ => exact hm _ _ this

/-- The same function without reordering has the same diagram. -/
theorem edge_ofId (hm : m.Mono) {f : BDD m} {g : BDD Mgr.id} (h : ∀ x, f.eval x = g.eval x) :
    f.edge = g.edge := Edge.eq_of_eval f.wf (DD.WF.ofId hm g.wf) h

theorem solPure_congr {m' : Mgr} {f : BDD m} {g : BDD m'} (h : f.edge = g.edge) :
    solPure f = solPure g := by
  funext a
  simp [solPure, terminalLevel, BDD.supportIndices, h]

theorem roundDown_ofId (hm : m.Mono) {f r : BDD m} {f' r' : BDD Mgr.id} {ls le : Nat}
    (hf : ∀ x, f.eval x = f'.eval x) (hr : ∀ x, r.eval x = r'.eval x)
    (h : roundDown f' ls le = .ok r') : roundDown f ls le = .ok r := by
  have he := edge_ofId hm hf
  obtain ⟨s, h1, h2⟩ := roundDown_spec f ls le
  obtain ⟨s', h1', h2'⟩ := roundDown_spec f' ls le
  rw [h] at h1'
  obtain rfl := Except.ok.inj h1'
  rw [h1]
  apply congrArg Except.ok
  apply BDD.ext_eval
  intro x
  rw [h2, hr, h2', solPure_congr he, he]

theorem roundUp_ofId (hm : m.Mono) {f r : BDD m} {f' r' : BDD Mgr.id} {ls le : Nat}
    (hf : ∀ x, f.eval x = f'.eval x) (hr : ∀ x, r.eval x = r'.eval x)
    (h : roundUp f' ls le = .ok r') : roundUp f ls le = .ok r := by
  have he := edge_ofId hm hf
  obtain ⟨s, h1, h2⟩ := roundUp_spec f ls le
  obtain ⟨s', h1', h2'⟩ := roundUp_spec f' ls le
  rw [h] at h1'
  obtain rfl := Except.ok.inj h1'
  rw [h1]
  apply congrArg Except.ok
  apply BDD.ext_eval
  intro x
  rw [h2, hr, h2', solPure_congr he, he]

theorem roundBdd_ofId (hm : m.Mono) {f r : BDD m} {f' r' : BDD Mgr.id} {l : Nat}
    (hf : ∀ x, f.eval x = f'.eval x) (hr : ∀ x, r.eval x = r'.eval x)
    (h : roundBdd f' l = .ok r') : roundBdd f l = .ok r := by
  have he := edge_ofId hm hf
  obtain ⟨s, h1, h2⟩ := roundBdd_spec f l
  obtain ⟨s', h1', h2'⟩ := roundBdd_spec f' l
  rw [h] at h1'
  obtain rfl := Except.ok.inj h1'
  rw [h1]
  apply congrArg Except.ok
  apply BDD.ext_eval
  intro x
  rw [h2, hr, h2', he]

/-- Two lists of functions of different managers that agree. -/
def SameFun (f : List (BDD m)) (g : List (BDD Mgr.id)) : Prop :=
  List.Forall₂ (fun a b => ∀ x, a.eval x = b.eval x) f g

theorem mapM_ofId {op : BDD m → Except Fault (BDD m)} {op' : BDD Mgr.id → Except Fault (BDD Mgr.id)}
    (hop : ∀ {f r f' r'}, (∀ x, f.eval x = f'.eval x) → (∀ x, r.eval x = r'.eval x) →
      op' f' = .ok r' → op f = .ok r) :
    ∀ {f r f' r'}, SameFun f f' → SameFun r r' → f'.mapM op' = .ok r' → f.mapM op = .ok r
  | _, _, _, _, .nil, hr, h => by
      simp only [List.mapM_nil, pure, Except.pure, Except.ok.injEq] at h
      subst h
      cases hr
      rfl
  | _, _, _, _, .cons (a := a) (b := b) h1 hf, hr, h => by
      simp only [List.mapM_cons, bind, Except.bind] at h ⊢
      cases hb : op' b with
      | error e => simp [hb] at h
      | ok b' =>
          rw [hb] at h
          dsimp only at h
          rename_i l1 l2
          cases hl : l2.mapM op' with
          | error e => simp [hl] at h
          | ok l' =>
              rw [hl] at h
              simp only [pure, Except.pure, Except.ok.injEq] at h
              subst h
              cases hr with
              | cons h2 hr =>
                rw [hop h1 h2 hb]
                dsimp only
                rw [mapM_ofId hop hf hr hl]
                rfl

theorem eval_cube (b : BDD m) (bs : List (BDD m)) (x : Asg) :
    (cube b bs).eval x = (b.eval x && bs.all (·.eval x)) := by
  induction bs generalizing b with
  | nil => simp [cube]
  | cons a l ih =>
      have := ih (b.and a)
      simp only [cube, List.foldl_cons] at this ⊢
      rw [this]
      simp [Bool.and_assoc]

theorem eval_cubes (b : BDD m) (bs : List (BDD m)) (x : Asg) :
    (cubes b bs).eval x = (b.eval x || bs.any (·.eval x)) := by
  induction bs generalizing b with
  | nil => simp [cubes]
  | cons a l ih =>
      have := ih (b.or a)
      simp only [cubes, List.foldl_cons] at this ⊢
      rw [this]
      simp [Bool.or_assoc]

theorem same1a : SameFun (example1a : List (BDD m)) example1a := by
  simp [SameFun, example1a, eval_cube, eval_cubes]
theorem same1b : SameFun (example1b : List (BDD m)) example1b := by
  simp [SameFun, example1b, eval_cube, eval_cubes]
theorem same1c : SameFun (example1c : List (BDD m)) example1c := by
  simp [SameFun, example1c, eval_cube, eval_cubes]
theorem same1d : SameFun (example1d : List (BDD m)) example1d := by
  simp [SameFun, example1d, eval_cube, eval_cubes]

end Verif

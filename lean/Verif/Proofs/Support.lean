import Verif.Proofs.Bucket
import Verif.Proofs.ErrorRate

/-!
# The operators introduce no variables
-/

namespace Verif

variable {m : Mgr}

theorem removeSem_congr (c : Edge → ℚ) (ls le : Nat) (heavy subset : Bool) (d : DD) (neg : Bool)
    {x y : Asg} (h : ∀ v ∈ d.vars, x v = y v) :
    removeSem c ls le heavy subset d neg x = removeSem c ls le heavy subset d neg y := by
  induction d generalizing neg with
  | one => rfl
  | node v t k e iht ihe =>
    have h1 := h v (by simp [DD.vars])
    have h2 := fun neg => iht neg (fun w hw => h w (by simp [DD.vars, hw]))
    have h3 := fun neg => ihe neg (fun w hw => h w (by simp [DD.vars, hw]))
    have h4 : Edge.eval ⟨neg, .node v t k e⟩ x = Edge.eval ⟨neg, .node v t k e⟩ y := by
      unfold Edge.eval
      rw [DD.eval_congr h]
    unfold removeSem
    rw [h1, h2, h3, h4]

theorem roundSem_congr (c : Edge → ℚ) (ls : Nat) (d : DD) (neg : Bool)
    {x y : Asg} (h : ∀ v ∈ d.vars, x v = y v) : roundSem c ls d neg x = roundSem c ls d neg y := by
  induction d generalizing neg with
  | one => rfl
  | node v t k e iht ihe =>
    have h1 := h v (by simp [DD.vars])
    have h2 := fun neg => iht neg (fun w hw => h w (by simp [DD.vars, hw]))
    have h3 := fun neg => ihe neg (fun w hw => h w (by simp [DD.vars, hw]))
    unfold roundSem
    rw [h1, h2, h3]

theorem roundBestSem_congr (c : Edge → ℚ) (ls le : Nat) (d : DD) (neg : Bool)
    {x y : Asg} (h : ∀ v ∈ d.vars, x v = y v) :
    roundBestSem c ls le d neg x = roundBestSem c ls le d neg y := by
  induction d generalizing neg with
  | one => rfl
  | node v t k e iht ihe =>
    have h1 := h v (by simp [DD.vars])
    have h2 := fun neg => iht neg (fun w hw => h w (by simp [DD.vars, hw]))
    have h3 := fun neg => ihe neg (fun w hw => h w (by simp [DD.vars, hw]))
    have h4 : Edge.eval ⟨neg, .node v t k e⟩ x = Edge.eval ⟨neg, .node v t k e⟩ y := by
      unfold Edge.eval
      rw [DD.eval_congr h]
    unfold roundBestSem
    rw [h1, h2, h3, h4]

/-- A function determined by the variables of `b` has its support in that of `b`. -/
theorem support_of_eval {b r : BDD m}
    (h : ∀ x y : Asg, (∀ v ∈ b.supportIndices, x v = y v) → r.eval x = r.eval y) :
    ∀ v ∈ r.supportIndices, v ∈ b.supportIndices := by
  intro v hv
  by_contra hc
  rw [BDD.mem_supportIndices] at hv
  obtain ⟨x, hx⟩ := hv
  apply hx
  apply h
  intro w hw
  have : w ≠ v := fun e => hc (e ▸ hw)
  simp [Function.update, this]

theorem vars_agree {b : BDD m} {x y : Asg} (h : ∀ v ∈ b.supportIndices, x v = y v) :
    ∀ v ∈ b.edge.n.vars, x v = y v := fun v hv => h v (by simpa [BDD.supportIndices] using hv)

theorem applyOperator_support {b r : BDD m} {op : Operator} {ls le : Nat}
    (h : applyOperator b op ls le = .ok r) : ∀ v ∈ r.supportIndices, v ∈ b.supportIndices := by
  apply support_of_eval
  intro x y hxy
  have hv := vars_agree hxy
  have key : ∀ {o : Except Fault (BDD m)} {F : Asg → Bool}, o = .ok r →
      (∃ r', o = .ok r' ∧ ∀ x, r'.eval x = F x) → F x = F y → r.eval x = r.eval y := by
    rintro o F rfl ⟨r', h1, h2⟩ hF
    cases h1
    rw [h2, h2, hF]
  cases op with
  | positiveCofactor =>
    cases h
    rw [cofactor_eval, cofactor_eval]
    exact BDD.eval_congr (fun v hv => by
      by_cases hvl : v = ls
      · subst hvl; simp
      · simp [Function.update, hvl, hxy v hv])
  | negativeCofactor =>
    cases h
    rw [cofactor_eval, cofactor_eval]
    exact BDD.eval_congr (fun v hv => by
      by_cases hvl : v = ls
      · subst hvl; simp
      · simp [Function.update, hvl, hxy v hv])
  | subsetLight => exact key h (roundAny_spec b ls le false true) (removeSem_congr _ _ _ _ _ _ _ hv)
  | subsetHeavy => exact key h (roundAny_spec b ls le true true) (removeSem_congr _ _ _ _ _ _ _ hv)
  | supersetLight => exact key h (roundAny_spec b ls le false false) (removeSem_congr _ _ _ _ _ _ _ hv)
  | supersetHeavy => exact key h (roundAny_spec b ls le true false) (removeSem_congr _ _ _ _ _ _ _ hv)
  | roundBest => exact key h (roundBest_spec b ls le) (roundBestSem_congr _ _ _ _ _ hv)
  | round => exact key h (roundBdd_spec b ls) (roundSem_congr _ _ _ _ hv)

theorem roundUp_support {b r : BDD m} {ls le : Nat} (h : roundUp b ls le = .ok r) :
    ∀ v ∈ r.supportIndices, v ∈ b.supportIndices := by
  obtain ⟨r', h1, h2⟩ := roundUp_spec b ls le
  rw [h] at h1
  cases h1
  exact support_of_eval (fun x y hxy => by
    rw [h2, h2, removeSem_congr _ _ _ _ _ _ _ (vars_agree hxy)])

theorem roundDown_support {b r : BDD m} {ls le : Nat} (h : roundDown b ls le = .ok r) :
    ∀ v ∈ r.supportIndices, v ∈ b.supportIndices := by
  obtain ⟨r', h1, h2⟩ := roundDown_spec b ls le
  rw [h] at h1
  cases h1
  exact support_of_eval (fun x y hxy => by
    rw [h2, h2, removeSem_congr _ _ _ _ _ _ _ (vars_agree hxy)])

/-- Bit by bit, the variables of `g` are variables of `f`. -/
def Narrows (f g : List (BDD m)) : Prop :=
  List.Forall₂ (fun b r : BDD m => ∀ v ∈ r.supportIndices, v ∈ b.supportIndices) f g

theorem Narrows.refl (f : List (BDD m)) : Narrows f f :=
  List.forall₂_same.mpr (fun _ _ _ h => h)

theorem Narrows.trans {f g h : List (BDD m)} (h1 : Narrows f g) (h2 : Narrows g h) : Narrows f h := by
  unfold Narrows at *
  induction h1 generalizing h with
  | nil => cases h2; exact .nil
  | cons hab _ ih => cases h2 with
    | cons hbc hr => exact .cons (fun v hv => hab v (hbc v hv)) (ih hr)

theorem Narrows.fits {f g : List (BDD m)} (h : Narrows f g) {N : Nat} (hf : Fits N f) : Fits N g := by
  intro b hb v hv
  obtain ⟨i, hi, rfl⟩ := List.mem_iff_getElem.mp hb
  have hi' : i < f.length := by rw [h.length_eq]; exact hi
  exact hf f[i] (List.getElem_mem _) v (h.get hi' hi v hv)

/-- An operator that keeps the number of bits and adds no variables. -/
def OpNarrows (op : OpFun m) : Prop := ∀ g h, op g = .ok h → Narrows g h

theorem applyOperatorAll_narrows (op : Operator) (ls le : Nat) : OpNarrows (m := m) (applyOperatorAll op ls le) := by
  intro g h hg
  obtain ⟨h', e, hF⟩ := applyOperatorAll_spec op ls le g
  rw [hg] at e
  cases e
  exact hF.imp (fun b b' hb => applyOperator_support hb)

theorem applyOperatorAt_narrows (i j : Nat) (op : Operator) : OpNarrows (m := m) (applyOperatorAt i j op) := by
  intro g h hg
  unfold applyOperatorAt at hg
  obtain ⟨b, hb, hg⟩ := bind_ok hg
  obtain ⟨b', hb', hg⟩ := bind_ok hg
  cases hg
  rw [vget_ok_iff] at hb
  apply List.forall₂_iff_get.mpr
  refine ⟨by simp, fun k h1 h2 v hv => ?_⟩
  simp only [List.get_eq_getElem, List.getElem_set] at hv ⊢
  split at hv
  · rename_i hik
    subst hik
    rw [List.getElem?_eq_getElem h1] at hb
    cases hb
    exact applyOperator_support hb' v hv
  · exact hv

theorem Reach.narrows {ops : List (OpFun m)} (hops : ∀ op ∈ ops, OpNarrows op) {f g : List (BDD m)}
    (h : Reach ops f g) : Narrows f g := by
  induction h with
  | refl => exact .refl f
  | step _ hop hok ih => exact ih.trans (hops _ hop _ _ hok)

theorem generateRandom_mem {f : List (BDD m)} {os : List Operator} {rs : Nat → Nat} {n k : Nat}
    {l : List (OpFun m)} (h : generateRandomOperators f os rs n k = .ok l) :
    ∀ F ∈ l, ∃ op ∈ os, ∃ j, F = applyOperatorAll op j j := by
  induction n generalizing k l with
  | zero => cases h; simp
  | succ n ih =>
    unfold generateRandomOperators at h
    split at h
    · cases h
    · obtain ⟨op, hop, h⟩ := bind_ok h
      split at h
      · cases h
      · obtain ⟨rest, hrest, h⟩ := bind_ok h
        cases h
        intro F hF
        rcases List.mem_cons.mp hF with rfl | hF
        · exact ⟨op, List.mem_of_getElem? (vget_ok_iff.mp hop), _, rfl⟩
        · exact ih hrest F hF

end Verif

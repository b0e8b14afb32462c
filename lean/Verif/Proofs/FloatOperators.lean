import Verif.Model.FloatOperators
import Verif.Proofs.FloatBucket
import Verif.Proofs.FloatSolutions
import Verif.Proofs.Helper
import Verif.Props.Float

/-! # Lemmas on the operators of the bucket search, with counts that are `double`s -/

namespace Verif

variable {m : Mgr} {rnd : ℚ → ℚ}

theorem roundBestSemF_congr (c : Edge → ℚ) (ls le : Nat) (d : DD) (neg : Bool)
    {x y : Asg} (h : ∀ v ∈ d.vars, x v = y v) :
    roundBestSemF rnd c ls le d neg x = roundBestSemF rnd c ls le d neg y := by
  induction d generalizing neg with
  | one => rfl
  | node v t k e iht ihe =>
    have h1 := h v (by simp [DD.vars])
    have h2 := fun neg => iht neg (fun w hw => h w (by simp [DD.vars, hw]))
    have h3 := fun neg => ihe neg (fun w hw => h w (by simp [DD.vars, hw]))
    have h4 : Edge.eval ⟨neg, .node v t k e⟩ x = Edge.eval ⟨neg, .node v t k e⟩ y := by
      unfold Edge.eval
      rw [DD.eval_congr h]
    unfold roundBestSemF
    rw [h1, h2, h3, h4]

theorem applyOperatorF_total (rnd : ℚ → ℚ) (b : BDD m) (op : Operator) (ls le : Nat) :
    ∃ r, applyOperatorF rnd b op ls le = .ok r := by
  cases op with
  | positiveCofactor => exact ⟨_, rfl⟩
  | negativeCofactor => exact ⟨_, rfl⟩
  | subsetLight => exact let ⟨r, h, _⟩ := roundAnyF_sem rnd b ls le false true; ⟨r, h⟩
  | subsetHeavy => exact let ⟨r, h, _⟩ := roundAnyF_sem rnd b ls le true true; ⟨r, h⟩
  | supersetLight => exact let ⟨r, h, _⟩ := roundAnyF_sem rnd b ls le false false; ⟨r, h⟩
  | supersetHeavy => exact let ⟨r, h, _⟩ := roundAnyF_sem rnd b ls le true false; ⟨r, h⟩
  | roundBest => exact let ⟨r, h, _⟩ := roundBestF_sem rnd b ls le; ⟨r, h⟩
  | round => exact let ⟨r, h, _⟩ := roundBddF_sem rnd b ls; ⟨r, h⟩

theorem applyOperatorF_support {b r : BDD m} {op : Operator} {ls le : Nat}
    (h : applyOperatorF rnd b op ls le = .ok r) : ∀ v ∈ r.supportIndices, v ∈ b.supportIndices := by
  have key : ∀ {o : Except Fault (BDD m)} {F : Asg → Bool}, o = .ok r → (∃ r', o = .ok r' ∧ ∀ x, r'.eval x = F x) →
      (∀ x y : Asg, (∀ v ∈ b.edge.n.vars, x v = y v) → F x = F y) → ∀ v ∈ r.supportIndices, v ∈ b.supportIndices := by
    rintro o F rfl ⟨r', h1, h2⟩ hF
    cases h1
    exact support_of_eval fun x y hxy => by rw [h2, h2, hF x y (vars_agree hxy)]
  cases op with
  | positiveCofactor => exact applyOperator_support (op := .positiveCofactor) (ls := ls) (le := le) h
  | negativeCofactor => exact applyOperator_support (op := .negativeCofactor) (ls := ls) (le := le) h
  | subsetLight => exact key h (roundAnyF_sem rnd b ls le false true) fun _ _ => removeSem_congr _ _ _ _ _ _ _
  | subsetHeavy => exact key h (roundAnyF_sem rnd b ls le true true) fun _ _ => removeSem_congr _ _ _ _ _ _ _
  | supersetLight => exact key h (roundAnyF_sem rnd b ls le false false) fun _ _ => removeSem_congr _ _ _ _ _ _ _
  | supersetHeavy => exact key h (roundAnyF_sem rnd b ls le true false) fun _ _ => removeSem_congr _ _ _ _ _ _ _
  | roundBest => exact key h (roundBestF_sem rnd b ls le) fun _ _ => roundBestSemF_congr _ _ _ _ _
  | round => exact key h (roundBddF_sem rnd b ls) fun _ _ => roundSem_congr _ _ _ _

theorem applyOperatorF_exact (hr : Nearest rnd) {b : BDD m} (hb : Fits 53 [b]) (op : Operator) (ls le : Nat) :
    applyOperatorF rnd b op ls le = applyOperator b op ls le := by
  obtain ⟨h1, h2, h3, -⟩ := C88_operators_exact hr b 53 hb le_rfl ls le
  cases op with
  | positiveCofactor => rfl
  | negativeCofactor => rfl
  | subsetLight => exact h1 false true
  | subsetHeavy => exact h1 true true
  | supersetLight => exact h1 false false
  | supersetHeavy => exact h1 true false
  | roundBest => exact h3
  | round => exact h2

theorem applyOperatorAllF_spec (rnd : ℚ → ℚ) (op : Operator) (ls le : Nat) (f : List (BDD m)) :
    ∃ g, applyOperatorAllF rnd op ls le f = .ok g ∧
      List.Forall₂ (fun b b' => applyOperatorF rnd b op ls le = .ok b') f g := by
  induction f with
  | nil => exact ⟨[], rfl, .nil⟩
  | cons b bs ih =>
    obtain ⟨g, hg, h⟩ := ih
    obtain ⟨b', hb⟩ := applyOperatorF_total rnd b op ls le
    refine ⟨b' :: g, ?_, .cons hb h⟩
    unfold applyOperatorAllF
    rw [hb, hg]
    rfl

theorem applyOperatorAtF_spec (rnd : ℚ → ℚ) {i : Nat} (j : Nat) (op : Operator) {f : List (BDD m)} {b : BDD m}
    (h : f[i]? = some b) :
    ∃ b', applyOperatorF rnd b op j j = .ok b' ∧ applyOperatorAtF rnd i j op f = .ok (f.set i b') := by
  obtain ⟨b', hb⟩ := applyOperatorF_total rnd b op j j
  refine ⟨b', hb, ?_⟩
  unfold applyOperatorAtF
  rw [vget_ok_iff.mpr h]
  show (applyOperatorF _ _ _ _ _ >>= _) = _
  rw [hb]
  rfl

theorem applyOperatorAllF_narrows (op : Operator) (ls le : Nat) :
    OpNarrows (m := m) (applyOperatorAllF rnd op ls le) := by
  intro g h hg
  obtain ⟨h', e, hF⟩ := applyOperatorAllF_spec rnd op ls le g
  rw [hg] at e
  cases e
  exact hF.imp (fun b b' hb => applyOperatorF_support hb)

theorem applyOperatorAtF_narrows (i j : Nat) (op : Operator) : OpNarrows (m := m) (applyOperatorAtF rnd i j op) := by
  intro g h hg
  unfold applyOperatorAtF at hg
  obtain ⟨b, hb, hg⟩ := bind_ok hg
  obtain ⟨b', hb', hg⟩ := bind_ok hg
  cases hg
  rw [vget_ok_iff] at hb
  apply List.forall₂_iff_get.mpr
  refine ⟨by simp, fun k h1 h2 v hv => ?_⟩
  simp only [List.get_eq_getElem, List.getElem_set] at hv ⊢
  split at hv
  · rename_i hik
    subst hik
    rw [List.getElem?_eq_getElem h1] at hb
    cases hb
    exact applyOperatorF_support hb' v hv
  · exact hv

theorem generateRandomF_mem {f : List (BDD m)} {os : List Operator} {rs : Nat → Nat} {n k : Nat}
    {l : List (OpFun m)} (h : generateRandomOperatorsF rnd f os rs n k = .ok l) :
    ∀ F ∈ l, ∃ op ∈ os, ∃ j, F = applyOperatorAllF rnd op j j := by
  induction n generalizing k l with
  | zero => cases h; simp
  | succ n ih =>
    unfold generateRandomOperatorsF at h
    split at h
    · cases h
    · obtain ⟨op, hop, h⟩ := bind_ok h
      split at h
      · cases h
      · obtain ⟨rest, hrest, h⟩ := bind_ok h
        cases h
        intro F hF
        rcases List.mem_cons.mp hF with rfl | hF
        · exact ⟨op, List.mem_of_getElem? (vget_ok_iff.mp hop), _, rfl⟩
        · exact ih hrest F hF

theorem operatorFunctionsF_narrows {f : List (BDD m)} {info : MinimizationInfo} {rs : Nat → Nat}
    {ops : List (OpFun m)} (h : operatorFunctionsF rnd f info rs = .ok ops) :
    ∀ op ∈ ops, OpNarrows op := by
  unfold operatorFunctionsF at h
  intro F hF
  split at h
  · cases h
    simp only [generateSingleBddOperatorsF, List.mem_flatMap, List.mem_map] at hF
    obtain ⟨i, -, j, -, op, -, rfl⟩ := hF
    exact applyOperatorAtF_narrows i j op
  · cases h
    simp only [generateMultiBddOperatorsF, List.mem_flatMap, List.mem_map] at hF
    obtain ⟨j, -, op, -, rfl⟩ := hF
    exact applyOperatorAllF_narrows op j j
  · split at h
    · obtain ⟨op, -, j, rfl⟩ := generateRandomF_mem h F hF
      exact applyOperatorAllF_narrows op j j
    · cases h

theorem operatorFunctionsF_total {f : List (BDD m)} {info : MinimizationInfo} {rs : Nat → Nat}
    {ops : List (OpFun m)} (h : operatorFunctionsF rnd f info rs = .ok ops) :
    ∀ op ∈ ops, ∀ g : List (BDD m), g.length = f.length → ∃ r, op g = .ok r := by
  unfold operatorFunctionsF at h
  intro F hF g hg
  split at h
  · cases h
    simp only [generateSingleBddOperatorsF, List.mem_flatMap, List.mem_map, List.mem_range] at hF
    obtain ⟨i, hi, j, -, op, -, rfl⟩ := hF
    obtain ⟨b', -, e⟩ := applyOperatorAtF_spec rnd j op
      (List.getElem?_eq_getElem (show i < g.length by omega))
    exact ⟨_, e⟩
  · cases h
    simp only [generateMultiBddOperatorsF, List.mem_flatMap, List.mem_map] at hF
    obtain ⟨j, -, op, -, rfl⟩ := hF
    exact let ⟨r, e, _⟩ := applyOperatorAllF_spec rnd op j j g; ⟨r, e⟩
  · split at h
    · obtain ⟨op, -, j, rfl⟩ := generateRandomF_mem h F hF
      exact let ⟨r, e, _⟩ := applyOperatorAllF_spec rnd op j j g; ⟨r, e⟩
    · cases h

/-- Two operators that do the same on functions of the class. -/
def SameOp (P : List (BDD m) → Prop) (op op' : OpFun m) : Prop := ∀ g, P g → op g = op' g

/-- A relation between operators that holds for all the single ones holds for the generated ones. -/
theorem operatorFunctionsF_rel (f : List (BDD m)) (info : MinimizationInfo) (rs : Nat → Nat) {P : List (BDD m) → Prop}
    (hall : ∀ op ∈ info.operators, ∀ j, SameOp P (applyOperatorAllF rnd op j j) (applyOperatorAll op j j))
    (hat : ∀ op ∈ info.operators, ∀ i j, SameOp P (applyOperatorAtF rnd i j op) (applyOperatorAt i j op)) :
    ExRel (List.Forall₂ (SameOp P)) (operatorFunctionsF rnd f info rs) (operatorFunctions f info rs) := by
  have flat : ∀ {α : Type} (l : List α) (F G : α → List (OpFun m)), (∀ a ∈ l, List.Forall₂ (SameOp P) (F a) (G a)) →
      List.Forall₂ (SameOp P) (l.flatMap F) (l.flatMap G) := fun l F G h => by
    induction l with
    | nil => exact .nil
    | cons a l ih =>
      rw [List.flatMap_cons, List.flatMap_cons]
      exact List.rel_append (h a (by simp)) (ih fun b hb => h b (List.mem_cons_of_mem _ hb))
  have maps : ∀ (F G : Operator → OpFun m), (∀ op ∈ info.operators, SameOp P (F op) (G op)) →
      List.Forall₂ (SameOp P) (info.operators.map F) (info.operators.map G) := fun F G h => by
    rw [List.forall₂_map_left_iff, List.forall₂_map_right_iff, List.forall₂_same]
    exact h
  unfold operatorFunctionsF operatorFunctions
  cases info.operatorMode with
  | singleBdd => exact flat _ _ _ fun i _ => flat _ _ _ fun j _ => maps _ _ fun op hop => hat op hop i j
  | multiBdd => exact flat _ _ _ fun j _ => maps _ _ fun op hop => hall op hop j
  | random =>
    cases info.numOperatorFunctions with
    | none => rfl
    | some n =>
      dsimp only
      generalize 0 = k
      induction n generalizing k with
      | zero => exact List.Forall₂.nil
      | succ n ih =>
        unfold generateRandomOperatorsF generateRandomOperators
        by_cases h1 : info.operators.length = 0
        · rw [if_pos h1, if_pos h1]; rfl
        rw [if_neg h1, if_neg h1]
        refine (ExRel.same _).bind fun op op' hop _ he => ?_
        subst he
        by_cases h2 : terminalLevel [f] = 0
        · rw [if_pos h2, if_pos h2]; rfl
        rw [if_neg h2, if_neg h2]
        exact (ih (k + 2)).bind fun a b _ _ hab =>
          List.Forall₂.cons (hall op (List.mem_of_getElem? (vget_ok_iff.mp hop)) _) hab

theorem applyOperatorAllF_same {op : Operator} {ls le : Nat} : ∀ {g : List (BDD m)},
    (∀ b ∈ g, applyOperatorF rnd b op ls le = applyOperator b op ls le) →
    applyOperatorAllF rnd op ls le g = applyOperatorAll op ls le g
  | [], _ => rfl
  | b :: bs, h => by
      unfold applyOperatorAllF applyOperatorAll
      rw [h b (by simp), applyOperatorAllF_same fun c hc => h c (List.mem_cons_of_mem _ hc)]

theorem applyOperatorAtF_same {op : Operator} {i j : Nat} {g : List (BDD m)}
    (h : ∀ b ∈ g, applyOperatorF rnd b op j j = applyOperator b op j j) :
    applyOperatorAtF rnd i j op g = applyOperatorAt i j op g := by
  unfold applyOperatorAtF applyOperatorAt
  cases hv : vget g i with
  | error e => rfl
  | ok b => simp only [bind, Except.bind, h b (List.mem_of_getElem? (vget_ok_iff.mp hv))]

/-- Up to 53 variables the operators are those with exact counts. -/
theorem operatorFunctionsF_exact (hr : Nearest rnd) (f : List (BDD m)) (info : MinimizationInfo) (rs : Nat → Nat) :
    ExRel (List.Forall₂ (SameOp (Fits 53))) (operatorFunctionsF rnd f info rs) (operatorFunctions f info rs) := by
  have hb : ∀ {g : List (BDD m)}, Fits 53 g → ∀ b ∈ g, Fits 53 [b] := fun hg b hb c hc v hv => by
    rw [List.mem_singleton] at hc
    exact hg b hb v (hc ▸ hv)
  exact operatorFunctionsF_rel f info rs
    (fun op _ j g hg => applyOperatorAllF_same fun b hbm => applyOperatorF_exact hr (hb hg b hbm) op j j)
    (fun op _ i j g hg => applyOperatorAtF_same fun b hbm => applyOperatorF_exact hr (hb hg b hbm) op j j)

/-- Cofactors need no counts. -/
theorem operatorFunctionsF_cofactors (f : List (BDD m)) (info : MinimizationInfo) (rs : Nat → Nat)
    (h : ∀ op ∈ info.operators, op = .positiveCofactor ∨ op = .negativeCofactor) :
    operatorFunctionsF rnd f info rs = operatorFunctions f info rs := by
  have hc : ∀ op ∈ info.operators, ∀ j (b : BDD m), applyOperatorF rnd b op j j = applyOperator b op j j :=
    fun op hop j b => by rcases h op hop with rfl | rfl <;> rfl
  refine ((operatorFunctionsF_rel (P := fun _ => True) f info rs
    (fun op hop j g _ => applyOperatorAllF_same fun b _ => hc op hop j b)
    (fun op hop i j g _ => applyOperatorAtF_same fun b _ => hc op hop j b)).mono (S := Eq) fun a b hab => ?_).eq
  rw [← List.forall₂_eq_eq_eq]
  exact hab.imp fun x y hxy => funext fun g => hxy g trivial

end Verif

import Verif.Model.FloatMemory
import Verif.SpecFloatMemory
import Verif.Proofs.RefCountOps
import Verif.Proofs.FloatSolutions

/-! # The recursions with rounded counts as instances -/

namespace Verif

variable {m : Mgr} {rnd : ℚ → ℚ}
open NodeTable

theorem shareF_eq (d : DD) (neg : Bool) : shareF rnd d neg = fracF rnd ⟨neg, d⟩ := by
  induction d generalizing neg with
  | one => rfl
  | node v t c e iht ihe => rw [shareF, iht, ihe, fracF_node]

theorem touched_congr {go go' : Nat → Edge → Edge → Option (Bool × Bool)} (d : DD) :
    ∀ neg, (∀ neg' v t c e, (⟨neg', .node v t c e⟩ : Edge) ∈ d.reach neg →
      go v ⟨neg', t⟩ ⟨neg' ^^ c, e⟩ = go' v ⟨neg', t⟩ ⟨neg' ^^ c, e⟩) → touched go d neg = touched go' d neg := by
  induction d with
  | one => intro neg _; rfl
  | node v t c e iht ihe =>
    intro neg h
    rw [touched, touched, h neg v t c e (DD.self_mem_reach _ _),
      iht neg (fun neg' v' t' c' e' hm => h neg' v' t' c' e' (reach_then hm)),
      ihe (neg ^^ c) (fun neg' v' t' c' e' hm => h neg' v' t' c' e' (reach_else hm))]

theorem levelOf_eq (tl : Nat) (d : DD) : levelOf tl d = nodeLevel tl d := by cases d <;> rfl

theorem solutionsF_eq (hm : m.Mono) {tl : Nat} (h64 : tl ≤ 2 ^ 64) (d : DD) (hwf : d.WF m) (h : ∀ v ∈ d.vars, v < tl) :
    ∀ neg, memoPure (solutionStepF rnd tl) d neg = solutionsF rnd tl d neg := by
  induction d with
  | one => intro neg; rfl
  | node v t c e iht ihe =>
    intro neg
    obtain ⟨ht, he, htb, heb, _⟩ := hwf
    have hvtl : v < tl := h v (by simp [DD.vars])
    have hvt : ∀ w ∈ t.vars, w < tl := fun w hw => h w (by simp [DD.vars, hw])
    have hve : ∀ w ∈ e.vars, w < tl := fun w hw => h w (by simp [DD.vars, hw])
    have lt := nodeLevel_gt hm htb hvtl
    have le := nodeLevel_gt hm heb hvtl
    have lt2 := nodeLevel_le hvt
    have le2 := nodeLevel_le hve
    have m1 : (nodeLevel tl t + 2 ^ 64 - v - 1) % 2 ^ 64 = nodeLevel tl t - (v + 1) := by omega
    have m2 : (nodeLevel tl e + 2 ^ 64 - v - 1) % 2 ^ 64 = nodeLevel tl e - (v + 1) := by omega
    simp only [memoPure, solutionStepF, solutionsF, iht ht hvt, ihe he hve, levelOf_eq, m1, m2]

theorem minterm_keysF (f : BDD m) : ∀ x ∈ countMintermsF rnd f, x.1.n ∈ f.edge.n.subs := by
  unfold countMintermsF
  rw [countMintermsRecF_eq]
  exact memoRec_keys (mintermStepF rnd) (fun d => d ∈ f.edge.n.subs) f.edge.n f.edge.neg [] (by simp) (fun _ h => h)

theorem solution_keysF (f : BDD m) : ∀ x ∈ countSolutionsF rnd f, x.1.n ∈ f.edge.n.subs := by
  unfold countSolutionsF
  rw [countSolutionsRecF_eq]
  exact memoRec_keys (solutionStepF rnd _) (fun d => d ∈ f.edge.n.subs) f.edge.n f.edge.neg [] (by simp) (fun _ h => h)

/-! ### `round_best_rec` -/

def pBestF (rnd : ℚ → ℚ) (ls le v : Nat) : Option ℚ → Option ℚ → Plan
  | tc, ec =>
    if v < ls then .both
    else if v ≤ le then
      match tc, ec with
      | some tc, some ec =>
        if tc < ec ∧ tc < rnd (1 - ec) then .thenC false
        else if ec < tc ∧ ec < rnd (1 - tc) then .elseC false
        else if tc > ec ∧ tc > rnd (1 - ec) then .thenC true
        else if ec > tc ∧ ec > rnd (1 - tc) then .elseC true
        else .bothC (decide (tc > 1 / 2)) (decide (ec > 1 / 2))
      | _, _ => .fail .logicError
    else .keep

def planBestF (rnd : ℚ → ℚ) (ls le : Nat) (cnt : NMap ℚ) : Edge → Plan
  | ⟨_, .one⟩ => .keep
  | ⟨neg, .node v t c e⟩ => pBestF rnd ls le v (NMap.find cnt ⟨neg, t⟩) (NMap.find cnt ⟨neg ^^ c, e⟩)

def planBestPF (rnd : ℚ → ℚ) (ls le : Nat) (cnt : PMap ℚ) (v : Nat) (_ nv nnv : Ptr) : Plan :=
  pBestF rnd ls le v (PMap.find cnt nv) (PMap.find cnt nnv)

theorem roundBestRecF_gen (ls le : Nat) (cnt : NMap ℚ) (d : DD) (h : d.WF m) :
    ∀ (neg : Bool) (mp : NMap (BDD m)), roundBestRecF rnd ls le cnt d h neg mp =
      genRec (planBestF rnd ls le cnt) d h neg mp := by
  induction d with
  | one => intro neg mp; rfl
  | node v t c e iht ihe =>
    intro neg mp
    rw [roundBestRecF, genRec]
    cases NMap.find mp ⟨neg, .node v t c e⟩ with
    | some x => rfl
    | none =>
      simp only [planBestF, pBestF]
      by_cases h1 : v < ls
      · simp only [if_pos h1, iht, ihe]
      · simp only [if_neg h1]
        by_cases h2 : v ≤ le
        · simp only [if_pos h2]
          cases NMap.find cnt ⟨neg, t⟩ with
          | none => rfl
          | some tc =>
            cases NMap.find cnt ⟨neg ^^ c, e⟩ with
            | none => rfl
            | some ec =>
              simp only
              by_cases c1 : tc < ec ∧ tc < rnd (1 - ec)
              · simp only [if_pos c1, ihe]; rfl
              · simp only [if_neg c1]
                by_cases c2 : ec < tc ∧ ec < rnd (1 - tc)
                · simp only [if_pos c2, iht]; rfl
                · simp only [if_neg c2]
                  by_cases c3 : tc > ec ∧ tc > rnd (1 - ec)
                  · simp only [if_pos c3, ihe]; rfl
                  · simp only [if_neg c3]
                    by_cases c4 : ec > tc ∧ ec > rnd (1 - tc)
                    · simp only [if_pos c4, iht]; rfl
                    · simp only [if_neg c4, constB_decide]
        · simp only [if_neg h2]

theorem roundBestRecPF_gen (E : Env) (ls le : Nat) (cnt : PMap ℚ) :
    ∀ (fuel : Nat) (p : Ptr) (mp : PMap Ptr) (H : NodeTable), roundBestRecPF rnd m E ls le cnt fuel p mp H =
      genP m E (planBestPF rnd ls le cnt) fuel p mp H := by
  intro fuel
  induction fuel with
  | zero => intro p mp H; rfl
  | succ k ih =>
    intro p mp H
    rw [roundBestRecPF, genP]
    cases H.nodeAt p.addr with
    | error x => rfl
    | ok d =>
      cases d with
      | one => rfl
      | node v t c e =>
        simp only [bind, Except.bind]
        cases PMap.find mp p with
        | some x => rfl
        | none =>
          simp only
          cases H.addrOf t with
          | error x => rfl
          | ok ta =>
            simp only
            cases H.addrOf e with
            | error x => rfl
            | ok ea =>
              simp only [planBestPF, pBestF]
              by_cases h1 : v < ls
              · simp only [if_pos h1, ih]
              · simp only [if_neg h1]
                by_cases h2 : v ≤ le
                · simp only [if_pos h2]
                  cases PMap.find cnt ⟨p.neg, ta⟩ with
                  | none => rfl
                  | some tc =>
                    cases PMap.find cnt ⟨p.neg ^^ c, ea⟩ with
                    | none => rfl
                    | some ec =>
                      simp only
                      by_cases c1 : tc < ec ∧ tc < rnd (1 - ec)
                      · simp only [if_pos c1, ih]
                      · simp only [if_neg c1]
                        by_cases c2 : ec < tc ∧ ec < rnd (1 - tc)
                        · simp only [if_pos c2, ih]
                        · simp only [if_neg c2]
                          by_cases c3 : tc > ec ∧ tc > rnd (1 - ec)
                          · simp only [if_pos c3, ih]
                          · simp only [if_neg c3]
                            by_cases c4 : ec > tc ∧ ec > rnd (1 - tc)
                            · simp only [if_pos c4, ih]
                            · simp only [if_neg c4]
                · simp only [if_neg h2]

theorem planBestF_ok (ls le : Nat) (cntP : PMap ℚ) (cnt : NMap ℚ) :
    PlanOk cntP cnt (planBestPF rnd ls le cntP) (planBestF rnd ls le cnt) := by
  intro H hv hc v t c e node nv nnv neg h1 h2 h3
  simp only [planBestPF, planBestF, find_cnt hv hc h2, find_cnt hv hc h3]

/-- A rounded difference above a `double` is above it exactly. -/
theorem below_exact (hr : Nearest rnd) {p q : ℚ} (hp : IsDouble p ∧ 0 ≤ p ∧ p ≤ 1) (hq : IsDouble q ∧ 0 ≤ q ∧ q ≤ 1)
    (h : p < rnd (1 - q)) : p < 1 - q := by
  by_contra hn
  push Not at hn
  have := hr.near (1 - q) p (by rw [abs_of_nonneg (by linarith [hq.2.2])]; exact (by linarith only [hq.2.1] : 1 - q ≤ 2).trans two_le_big) hp.1
  rw [abs_of_nonneg (by linarith : 0 ≤ p - (1 - q)), abs_le] at this
  linarith

theorem above_exact (hr : Nearest rnd) {p q : ℚ} (hp : IsDouble p ∧ 0 ≤ p ∧ p ≤ 1) (hq : IsDouble q ∧ 0 ≤ q ∧ q ≤ 1)
    (h : rnd (1 - q) < p) : 1 - q < p := by
  by_contra hn
  push Not at hn
  have := hr.near (1 - q) p (by rw [abs_of_nonneg (by linarith [hq.2.2])]; exact (by linarith only [hq.2.1] : 1 - q ≤ 2).trans two_le_big) hp.1
  rw [abs_of_nonpos (by linarith : p - (1 - q) ≤ 0), abs_le] at this
  linarith

theorem goBestF_plan (hr : Nearest rnd) {cnt : NMap ℚ} {f : Edge} (hw : ∀ a ∈ f.n.reach f.neg, NMap.find cnt a = some (fracF rnd a))
    (ls le : Nat) : ∀ neg' v t c e, (⟨neg', .node v t c e⟩ : Edge) ∈ f.n.reach f.neg →
      goBestF rnd ls le v ⟨neg', t⟩ ⟨neg' ^^ c, e⟩ = (planBestF rnd ls le cnt ⟨neg', .node v t c e⟩).go := by
  intro neg v t c e h
  obtain ⟨h1, h2⟩ := reach_children h
  have t1 := fracF_range hr t neg
  have t2 := fracF_range hr e (neg ^^ c)
  simp only [goBestF, planBestF, pBestF, hw _ h1, hw _ h2, shareF_eq, FurtherF]
  generalize fracF rnd ⟨neg, t⟩ = tc at t1
  generalize fracF rnd ⟨neg ^^ c, e⟩ = ec at t2
  have x1 := below_exact hr t1 t2
  have x2 := below_exact hr t2 t1
  have y1 := above_exact hr t1 t2
  have y2 := above_exact hr t2 t1
  by_cases h3 : v < ls
  · simp only [if_pos h3]; rfl
  · simp only [if_neg h3]
    by_cases h4 : v ≤ le
    · simp only [if_pos h4]
      by_cases c1 : tc < ec ∧ tc < rnd (1 - ec)
      · have n1 : ¬ ((ec < tc ∧ ec < rnd (1 - tc)) ∨ (tc < ec ∧ rnd (1 - tc) < ec)) := by
          rintro (⟨a, b⟩ | ⟨a, b⟩)
          · linarith [c1.1]
          · linarith [x1 c1.2, y2 b]
        rw [if_pos c1, decide_eq_true (Or.inl c1), decide_eq_false n1]
        rfl
      · rw [if_neg c1]
        by_cases c2 : ec < tc ∧ ec < rnd (1 - tc)
        · have n1 : ¬ ((tc < ec ∧ tc < rnd (1 - ec)) ∨ (ec < tc ∧ rnd (1 - ec) < tc)) := by
            rintro (⟨a, b⟩ | ⟨a, b⟩)
            · linarith [c2.1]
            · linarith [x2 c2.2, y1 b]
          rw [if_pos c2, decide_eq_true (Or.inl c2), decide_eq_false n1]
          rfl
        · rw [if_neg c2]
          by_cases c3 : tc > ec ∧ tc > rnd (1 - ec)
          · have n1 : ¬ ((ec < tc ∧ ec < rnd (1 - tc)) ∨ (tc < ec ∧ rnd (1 - tc) < ec)) := by
              rintro (⟨a, b⟩ | ⟨a, b⟩)
              · linarith [y1 c3.2, x2 b]
              · linarith [c3.1]
            rw [if_pos c3, decide_eq_true (Or.inr c3), decide_eq_false n1]
            rfl
          · rw [if_neg c3]
            have n1 : ¬ ((tc < ec ∧ tc < rnd (1 - ec)) ∨ (ec < tc ∧ rnd (1 - ec) < tc)) := by
              rintro (h | h)
              · exact c1 h
              · exact c3 h
            by_cases c4 : ec > tc ∧ ec > rnd (1 - tc)
            · rw [if_pos c4, decide_eq_true (Or.inr c4), decide_eq_false n1]
              rfl
            · have n2 : ¬ ((ec < tc ∧ ec < rnd (1 - tc)) ∨ (tc < ec ∧ rnd (1 - tc) < ec)) := by
                rintro (h | h)
                · exact c2 h
                · exact c4 h
              rw [if_neg c4, decide_eq_false n1, decide_eq_false n2]
              rfl
    · simp only [if_neg h4]; rfl

end Verif

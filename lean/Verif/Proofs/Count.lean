import Verif.Model.Operators
import Verif.Proofs.Mean

/-!
# Memoised counting is transparent
-/

namespace Verif

variable {m : Mgr}

theorem DD.self_mem_reach (d : DD) (neg : Bool) : (⟨neg, d⟩ : Edge) ∈ d.reach neg := by
  cases d <;> simp [DD.reach]

theorem DD.reach_trans {d : DD} {neg : Bool} {a : Edge} (h : a ∈ d.reach neg) :
    ∀ b ∈ a.n.reach a.neg, b ∈ d.reach neg := by
  induction d generalizing neg with
  | one =>
    simp only [DD.reach, List.mem_singleton] at h
    subst h
    exact fun b hb => hb
  | node v t c e iht ihe =>
    intro b hb
    simp only [DD.reach, List.mem_cons, List.mem_append] at h
    rcases h with rfl | h | h
    · exact hb
    · simp only [DD.reach, List.mem_cons, List.mem_append]
      exact .inr (.inl (iht h b hb))
    · simp only [DD.reach, List.mem_cons, List.mem_append]
      exact .inr (.inr (ihe h b hb))

theorem DD.reach_vars {d : DD} {neg : Bool} {a : Edge} (h : a ∈ d.reach neg) :
    ∀ v ∈ a.n.vars, v ∈ d.vars := by
  induction d generalizing neg with
  | one =>
    simp only [DD.reach, List.mem_singleton] at h
    subst h
    exact fun b hb => hb
  | node v t c e iht ihe =>
    intro b hb
    simp only [DD.reach, List.mem_cons, List.mem_append] at h
    simp only [DD.vars, List.mem_cons, List.mem_append]
    rcases h with rfl | h | h
    · simpa [DD.vars] using hb
    · exact .inr (.inl (iht h b hb))
    · exact .inr (.inr (ihe h b hb))

theorem DD.reach_wf {d : DD} {neg : Bool} {a : Edge} (hwf : d.WF m) (h : a ∈ d.reach neg) :
    a.n.WF m := by
  induction d generalizing neg with
  | one =>
    simp only [DD.reach, List.mem_singleton] at h
    subst h
    exact hwf
  | node v t c e iht ihe =>
    simp only [DD.reach, List.mem_cons, List.mem_append] at h
    rcases h with rfl | h | h
    · exact hwf
    · exact iht hwf.1 h
    · exact ihe hwf.2.1 h

theorem NMap.find_insert {α : Type _} (mp : NMap α) (k : Edge) (v : α) (e : Edge) :
    NMap.find (NMap.insert mp k v) e = if k = e then some v else NMap.find mp e := rfl

/-- The counting recursion without a memo table. -/
def memoPure (step : Nat → DD → DD → ℚ → ℚ → ℚ) : DD → Bool → ℚ
  | .one, neg => if neg then 0 else 1
  | .node v t c e, neg => step v t e (memoPure step t neg) (memoPure step e (neg ^^ c))

/-- The counting recursion with the memo table. -/
def memoRec (step : Nat → DD → DD → ℚ → ℚ → ℚ) : DD → Bool → NMap ℚ → ℚ × NMap ℚ
  | .one, neg, mp => match NMap.find mp ⟨neg, .one⟩ with
    | some q => (q, mp)
    | none => (if neg then 0 else 1, NMap.insert mp ⟨neg, .one⟩ (if neg then 0 else 1))
  | .node v t c e, neg, mp => match NMap.find mp ⟨neg, .node v t c e⟩ with
    | some q => (q, mp)
    | none =>
      let high := memoRec step t neg mp
      let low := memoRec step e (neg ^^ c) high.2
      (step v t e high.1 low.1, NMap.insert low.2 ⟨neg, .node v t c e⟩ (step v t e high.1 low.1))

/-- The memo table is right and closed under taking children. -/
structure MemoOk (F : DD → Bool → ℚ) (mp : NMap ℚ) : Prop where
  val : ∀ neg d q, NMap.find mp ⟨neg, d⟩ = some q → q = F d neg
  closed : ∀ neg d q, NMap.find mp ⟨neg, d⟩ = some q → ∀ a ∈ d.reach neg,
    (NMap.find mp a).isSome = true

theorem memoOk_nil (F : DD → Bool → ℚ) : MemoOk F [] :=
  ⟨fun _ _ _ h => by simp [NMap.find] at h, fun _ _ _ h => by simp [NMap.find] at h⟩

theorem memoOk_insert {F : DD → Bool → ℚ} {mp : NMap ℚ} (h : MemoOk F mp) (neg : Bool) (d : DD)
    (hr : ∀ a ∈ d.reach neg, a ≠ ⟨neg, d⟩ → (NMap.find mp a).isSome = true) :
    MemoOk F (NMap.insert mp ⟨neg, d⟩ (F d neg)) := by
  constructor
  · intro neg' d' q hq
    rw [NMap.find_insert] at hq
    split at hq
    · rename_i heq
      simp only [Edge.mk.injEq] at heq
      simp only [Option.some.injEq] at hq
      rw [← heq.1, ← heq.2, hq]
    · exact h.val neg' d' q hq
  · intro neg' d' q hq a ha
    rw [NMap.find_insert] at hq ⊢
    split at hq
    · rename_i heq
      simp only [Edge.mk.injEq] at heq
      rw [← heq.1, ← heq.2] at ha
      split
      · rfl
      · rename_i hne
        exact hr a ha (fun e => hne e.symm)
    · split
      · rfl
      · exact h.closed neg' d' q hq a ha

theorem memoRec_spec (step : Nat → DD → DD → ℚ → ℚ → ℚ) : ∀ (d : DD) (neg : Bool) (mp : NMap ℚ),
    MemoOk (memoPure step) mp →
    (memoRec step d neg mp).1 = memoPure step d neg ∧
    MemoOk (memoPure step) (memoRec step d neg mp).2 ∧
    (∀ a ∈ d.reach neg, (NMap.find (memoRec step d neg mp).2 a).isSome = true) ∧
    (∀ a, (NMap.find mp a).isSome = true →
      (NMap.find (memoRec step d neg mp).2 a).isSome = true) := by
  intro d
  induction d with
  | one =>
    intro neg mp hm
    unfold memoRec
    split
    · rename_i q hq
      exact ⟨hm.val neg _ q hq, hm, hm.closed neg _ q hq, fun a h => h⟩
    · rename_i hn
      have hval : (if neg then 0 else 1 : ℚ) = memoPure step .one neg := rfl
      refine ⟨hval, ?_, ?_, ?_⟩
      · rw [hval]
        apply memoOk_insert hm
        intro a ha hne
        simp only [DD.reach, List.mem_singleton] at ha
        exact absurd ha hne
      · intro a ha
        simp only [DD.reach, List.mem_singleton] at ha
        simp [NMap.find_insert, ha]
      · intro a ha
        rw [NMap.find_insert]
        split
        · rfl
        · exact ha
  | node v t c e iht ihe =>
    intro neg mp hm
    unfold memoRec
    split
    · rename_i q hq
      exact ⟨hm.val neg _ q hq, hm, hm.closed neg _ q hq, fun a h => h⟩
    · rename_i hn
      obtain ⟨h1, h2, h3, h4⟩ := iht neg mp hm
      obtain ⟨l1, l2, l3, l4⟩ := ihe (neg ^^ c) (memoRec step t neg mp).2 h2
      have hval : step v t e (memoRec step t neg mp).1
          (memoRec step e (neg ^^ c) (memoRec step t neg mp).2).1 =
          memoPure step (.node v t c e) neg := by rw [h1, l1]; rfl
      have hreach : ∀ a ∈ (DD.node v t c e).reach neg, a ≠ ⟨neg, .node v t c e⟩ →
          (NMap.find (memoRec step e (neg ^^ c) (memoRec step t neg mp).2).2 a).isSome = true := by
        intro a ha hne
        simp only [DD.reach, List.mem_cons, List.mem_append] at ha
        rcases ha with ha | ha | ha
        · exact absurd ha hne
        · exact l4 a (h3 a ha)
        · exact l3 a ha
      refine ⟨hval, ?_, ?_, ?_⟩
      · simp only [hval]
        exact memoOk_insert l2 neg _ hreach
      · intro a ha
        simp only [NMap.find_insert]
        split
        · rfl
        · rename_i hne
          exact hreach a ha (fun h => hne h.symm)
      · intro a ha
        simp only [NMap.find_insert]
        split
        · rfl
        · exact l4 a (h4 a ha)

/-- Step of `count_minterms_rec`. -/
def mintermStep : Nat → DD → DD → ℚ → ℚ → ℚ := fun _ _ _ h l => h / 2 + l / 2

/-- Step of `count_solutions_rec`. -/
def solutionStep (tl : Nat) : Nat → DD → DD → ℚ → ℚ → ℚ := fun v t e h l =>
  h * 2 ^ ((nodeLevel tl t + 2 ^ 64 - v - 1) % 2 ^ 64) +
  l * 2 ^ ((nodeLevel tl e + 2 ^ 64 - v - 1) % 2 ^ 64)

theorem countMintermsRec_eq : ∀ (d : DD) (neg : Bool) (mp : NMap ℚ),
    countMintermsRec d neg mp = memoRec mintermStep d neg mp := by
  intro d
  induction d with
  | one => intro neg mp; rfl
  | node v t c e iht ihe =>
    intro neg mp
    simp only [countMintermsRec, memoRec, iht, ihe, mintermStep]
    cases NMap.find mp ⟨neg, .node v t c e⟩ <;> rfl

theorem countSolutionsRec_eq (tl : Nat) : ∀ (d : DD) (neg : Bool) (mp : NMap ℚ),
    countSolutionsRec tl d neg mp = memoRec (solutionStep tl) d neg mp := by
  intro d
  induction d with
  | one => intro neg mp; rfl
  | node v t c e iht ihe =>
    intro neg mp
    simp only [countSolutionsRec, memoRec, iht, ihe, solutionStep]
    cases NMap.find mp ⟨neg, .node v t c e⟩ <;> rfl

theorem mintermPure_eq (d : DD) (neg : Bool) : memoPure mintermStep d neg = Edge.frac ⟨neg, d⟩ := by
  induction d generalizing neg with
  | one => cases neg <;> simp [memoPure, Edge.frac, DD.frac]
  | node v t c e iht ihe =>
    simp only [memoPure, iht, ihe, mintermStep, Edge.frac, DD.frac]
    cases neg <;> cases c <;> simp <;> ring

/-- Every reachable handle has its fraction in the map. -/
theorem countMinterms_find (f : BDD m) {a : Edge} (ha : a ∈ f.edge.n.reach f.edge.neg) :
    NMap.find (countMinterms f) a = some a.frac := by
  unfold countMinterms
  rw [countMintermsRec_eq]
  obtain ⟨_, h2, h3, _⟩ := memoRec_spec mintermStep f.edge.n f.edge.neg [] (memoOk_nil _)
  obtain ⟨q, hq⟩ := Option.isSome_iff_exists.mp (h3 a ha)
  rw [hq]
  have := h2.val a.neg a.n q hq
  rw [this, mintermPure_eq]

/-- The value `count_solutions` stores, without the memo table. -/
def solPure (f : BDD m) (a : Edge) : ℚ := memoPure (solutionStep (terminalLevel [[f]])) a.n a.neg

theorem countSolutions_find (f : BDD m) {a : Edge} (ha : a ∈ f.edge.n.reach f.edge.neg) :
    NMap.find (countSolutions f) a = some (solPure f a) := by
  unfold countSolutions
  rw [countSolutionsRec_eq]
  obtain ⟨_, h2, h3, _⟩ := memoRec_spec (solutionStep (terminalLevel [[f]])) f.edge.n f.edge.neg []
    (memoOk_nil _)
  obtain ⟨q, hq⟩ := Option.isSome_iff_exists.mp (h3 a ha)
  rw [hq]
  have := h2.val a.neg a.n q hq
  rw [this]; rfl

theorem Mgr.id_mono : Mgr.id.Mono := fun _ _ h => h

theorem Mgr.Mono.lt {m : Mgr} (hm : m.Mono) {a b : Nat} (h : m.lvl a < m.lvl b) : a < b := by
  rcases Nat.lt_trichotomy a b with h' | h' | h'
  · exact h'
  · subst h'; exact absurd h (lt_irrefl _)
  · exact absurd (hm b a h') (by omega)

theorem DD.Below.vars_lt {m : Mgr} (hm : m.Mono) {d : DD} {v : Nat} (hwf : d.WF m)
    (hb : d.Below m (m.lvl v)) : ∀ w ∈ d.vars, v < w :=
  fun w hw => hm.lt (hb.vars hwf w hw)

theorem nodeLevel_gt {m : Mgr} (hm : m.Mono) {d : DD} {v tl : Nat}
    (hb : d.Below m (m.lvl v)) (hv : v < tl) : v < nodeLevel tl d := by
  cases d with
  | one => exact hv
  | node w => exact hm.lt hb

theorem nodeLevel_le {d : DD} {tl : Nat} (h : ∀ w ∈ d.vars, w < tl) : nodeLevel tl d ≤ tl := by
  cases d with
  | one => exact le_rfl
  | node w t c e => exact (h w (by simp [DD.vars])).le

theorem solutionPure_eq (hm : m.Mono) (tl : Nat) (htl : tl ≤ 2 ^ 64) (d : DD) (neg : Bool)
    (hwf : d.WF m) (h : ∀ v ∈ d.vars, v < tl) :
    memoPure (solutionStep tl) d neg = Edge.frac ⟨neg, d⟩ * 2 ^ (tl - nodeLevel tl d) := by
  induction d generalizing neg with
  | one => cases neg <;> simp [memoPure, Edge.frac, DD.frac, nodeLevel]
  | node v t c e iht ihe =>
    obtain ⟨ht, he, htb, heb, _⟩ := hwf
    have hvtl : v < tl := h v (by simp [DD.vars])
    have hvt : ∀ w ∈ t.vars, w < tl := fun w hw => h w (by simp [DD.vars, hw])
    have hve : ∀ w ∈ e.vars, w < tl := fun w hw => h w (by simp [DD.vars, hw])
    have lt1 := nodeLevel_gt hm (tl := tl) htb hvtl
    have le1 := nodeLevel_gt hm (tl := tl) heb hvtl
    have lt2 := nodeLevel_le hvt
    have le2 := nodeLevel_le hve
    simp only [memoPure, solutionStep]
    rw [iht neg ht hvt, ihe (neg ^^ c) he hve]
    have m1 : (nodeLevel tl t + 2 ^ 64 - v - 1) % 2 ^ 64 = nodeLevel tl t - v - 1 := by omega
    have m2 : (nodeLevel tl e + 2 ^ 64 - v - 1) % 2 ^ 64 = nodeLevel tl e - v - 1 := by omega
    rw [m1, m2, mul_assoc, mul_assoc, ← pow_add, ← pow_add]
    have e1 : tl - nodeLevel tl t + (nodeLevel tl t - v - 1) = tl - v - 1 := by omega
    have e2 : tl - nodeLevel tl e + (nodeLevel tl e - v - 1) = tl - v - 1 := by omega
    rw [e1, e2]
    have e3 : (2 : ℚ) ^ (tl - nodeLevel tl (DD.node v t c e)) = 2 ^ (tl - v - 1) * 2 := by
      rw [← pow_succ]; congr 1; simp only [nodeLevel]; omega
    rw [e3]
    simp only [Edge.frac, DD.frac]
    cases neg <;> cases c <;> simp <;> ring

end Verif

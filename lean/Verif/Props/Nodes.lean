import Verif.Proofs.Nodes
import Verif.Proofs.Compare

/-!
# C14 – C16, C18 – C20: cofactors, levels, evaluation, counting
-/

namespace Verif

variable {m : Mgr}

/-! ## C14 `high` and `low`

The top variable of a BDD is the variable of its support of least level. -/

/-- `i` is the variable of least level in the support. -/
def IsTop (v : BDD m) (i : Nat) : Prop :=
  i ∈ v.supportIndices ∧ ∀ j ∈ v.supportIndices, m.lvl i ≤ m.lvl j

theorem isTop_node {v : BDD m} {i : Nat} (h : IsTop v i) :
    ∃ t c e, v.edge.n = .node i t c e := by
  obtain ⟨h1, h2⟩ := h
  have hwf := v.wf
  unfold BDD.supportIndices at h1 h2
  rw [List.mem_dedup] at h1
  cases hn : v.edge.n with
  | one => rw [hn] at h1; simp [DD.vars] at h1
  | node w t c e =>
    rw [hn] at h1 hwf
    have hw := h2 w (by rw [List.mem_dedup, hn]; simp [DD.vars])
    have hle : m.lvl w ≤ m.lvl i := by
      simp only [DD.vars, List.mem_cons, List.mem_append] at h1
      rcases h1 with rfl | h1 | h1
      · exact le_rfl
      · exact (hwf.2.2.1.vars hwf.1 i h1).le
      · exact (hwf.2.2.2.1.vars hwf.2.1 i h1).le
    have : w = i := m.inj _ _ (by omega)
    subst this
    exact ⟨t, c, e, rfl⟩

theorem C14_high (v : BDD m) (i : Nat) (h : IsTop v i) :
    ∃ r, high v = .ok r ∧ ∀ x, r.eval x = v.eval (Function.update x i true) := by
  obtain ⟨t, c, e, hn⟩ := isTop_node h
  obtain ⟨⟨neg, n⟩, wf⟩ := v
  simp only at hn; subst hn
  have hu : ∀ x, t.eval (Function.update x i true) = t.eval x := fun x =>
    wf.2.2.1.eval_update wf.1 x true
  cases neg <;> refine ⟨_, rfl, fun x => ?_⟩ <;>
    simp [BDD.eval, BDD.not, Edge.eval, Edge.not, DD.eval, hu]

theorem C14_terminal (v : BDD m) (h : v.supportIndices = []) :
    high v = .error .invalidArgument ∧ low v = .error .invalidArgument := by
  have : v.edge.n = .one := by
    cases hn : v.edge.n with
    | one => rfl
    | node w t c e =>
      have : w ∈ v.supportIndices := by
        unfold BDD.supportIndices; rw [List.mem_dedup, hn]; simp [DD.vars]
      rw [h] at this; simp at this
  obtain ⟨⟨neg, n⟩, wf⟩ := v
  simp only at this; subst this
  exact ⟨rfl, rfl⟩

/-- `low` is the cofactor unless `v` is false and its low cofactor is true at the all-ones input. -/
theorem C14_low_partial (v : BDD m) (i : Nat) (h : IsTop v i)
    (hb : v.eval (fun _ => true) = true ∨ v.eval (Function.update (fun _ => true) i false) = false) :
    ∃ r, low v = .ok r ∧ ∀ x, r.eval x = v.eval (Function.update x i false) := by
  obtain ⟨t, c, e, hn⟩ := isTop_node h
  obtain ⟨⟨neg, n⟩, wf⟩ := v
  simp only at hn; subst hn
  have hu : ∀ x, e.eval (Function.update x i false) = e.eval x := fun x =>
    wf.2.2.2.1.eval_update wf.2.1 x false
  have ht : t.eval (fun _ => true) = true := DD.eval_allTrue t
  have he : e.eval (fun _ => true) = true := DD.eval_allTrue e
  simp only [BDD.eval, Edge.eval, DD.eval, Function.update_self, hu, if_true, ht,
    Bool.false_eq_true, if_false, he] at hb
  cases neg <;> refine ⟨_, rfl, fun x => ?_⟩
  · simp [BDD.eval, Edge.eval, DD.eval, hu]
  · cases c
    · simp [BDD.eval, BDD.not, Edge.eval, Edge.not, DD.eval, hu]
    · simp at hb

/-- In the remaining case `low` is the *negation* of the cofactor, everywhere. -/
theorem C14_low_false (v : BDD m) (i : Nat) (h : IsTop v i)
    (hb : v.eval (fun _ => true) = false)
    (hb' : v.eval (Function.update (fun _ => true) i false) = true) :
    ∃ r, low v = .ok r ∧ ∀ x, r.eval x = !v.eval (Function.update x i false) := by
  obtain ⟨t, c, e, hn⟩ := isTop_node h
  obtain ⟨⟨neg, n⟩, wf⟩ := v
  simp only at hn; subst hn
  have hu : ∀ x, e.eval (Function.update x i false) = e.eval x := fun x =>
    wf.2.2.2.1.eval_update wf.2.1 x false
  have ht : t.eval (fun _ => true) = true := DD.eval_allTrue t
  have he : e.eval (fun _ => true) = true := DD.eval_allTrue e
  simp only [BDD.eval, Edge.eval, DD.eval, Function.update_self, hu, if_true, ht,
    Bool.false_eq_true, if_false, he] at hb hb'
  cases neg
  · simp at hb
  · cases c
    · simp at hb'
    · refine ⟨_, rfl, fun x => ?_⟩
      simp [BDD.eval, BDD.not, Edge.eval, Edge.not, DD.eval, hu]

/-- The exclusive or of two variables has top variable 0 and is in the wrong case. -/
example : IsTop (m := Mgr.id) ((BDD.var 0).xor (.var 1)) 0 ∧
    ((BDD.var 0 : BDD Mgr.id).xor (.var 1)).eval (fun _ => true) = false ∧
    ((BDD.var 0 : BDD Mgr.id).xor (.var 1)).eval (Function.update (fun _ => true) 0 false) = true :=
  ⟨⟨by decide +kernel, fun j _ => Nat.zero_le _⟩, by simp, by simp⟩

/-- The conjunction is in the right case. -/
example : IsTop (m := Mgr.id) ((BDD.var 0).and (.var 1)) 0 ∧
    ((BDD.var 0 : BDD Mgr.id).and (.var 1)).eval (fun _ => true) = true :=
  ⟨⟨by decide +kernel, fun j _ => Nat.zero_le _⟩, by simp⟩

/-- C14 as stated is false: the low cofactor of `x0 xor x1` is `x1`, the code returns its negation. -/
theorem C14_cofactors_false : ¬ ∀ (v : BDD Mgr.id) (i : Nat), IsTop v i →
    ∃ r, low v = .ok r ∧ ∀ x, r.eval x = v.eval (Function.update x i false) := by
  intro hall
  have ht : IsTop (m := Mgr.id) ((BDD.var 0).xor (.var 1)) 0 :=
    ⟨by decide +kernel, fun j _ => Nat.zero_le _⟩
  obtain ⟨r, hr, h1⟩ := hall _ _ ht
  obtain ⟨r', hr', h2⟩ := C14_low_false _ _ ht (by simp) (by simp)
  rw [hr] at hr'
  cases hr'
  have a := h1 (fun _ => true)
  have b := h2 (fun _ => true)
  rw [a] at b
  simp at b

/-! ## C15 `terminal_level` -/

theorem C15_terminal_level (fs : List (List (BDD m))) :
    (∀ f ∈ fs, ∀ b ∈ f, ∀ v ∈ b.supportIndices, v < terminalLevel fs) ∧
    (∀ N, (∃ f ∈ fs, ∃ b ∈ f, b.supportIndices ≠ []) →
      (∀ f ∈ fs, ∀ b ∈ f, ∀ v ∈ b.supportIndices, v < N) → terminalLevel fs ≤ N) := by
  refine ⟨fun f hf b hb v hv => terminalLevel_gt hf hb hv, fun N hne h => ?_⟩
  obtain ⟨f, hf, b, hb, hs⟩ := hne
  obtain ⟨v, hv⟩ := List.exists_mem_of_ne_nil _ hs
  exact terminalLevel_le (by have := h f hf b hb v hv; omega) h

/-- Vectors of constants have terminal level 1, the empty list 0. -/
theorem C15_terminal_level_constant (fs : List (List (BDD m)))
    (h : ∀ f ∈ fs, ∀ b ∈ f, b.supportIndices = []) :
    terminalLevel fs = if fs.flatten = [] then 0 else 1 := by
  split
  · rename_i he; rw [terminalLevel_eq, he]; rfl
  · rename_i he
    obtain ⟨b, hb⟩ := List.exists_mem_of_ne_nil _ he
    obtain ⟨f, hf, hb⟩ := List.mem_flatten.mp hb
    have h1 := terminalLevel_pos hf hb
    have h2 : terminalLevel fs ≤ 1 := terminalLevel_le (by omega) (fun f hf b hb v hv => by
      rw [h f hf b hb] at hv; simp at hv)
    omega

example : terminalLevel [[(BDD.var 3 : BDD Mgr.id)], [.one, .var 1]] = 4 := by decide +kernel
example : ∃ f ∈ [[(BDD.var 3 : BDD Mgr.id)], [.one, .var 1]], ∃ b ∈ f, b.supportIndices ≠ [] :=
  ⟨[.var 3], by simp, .var 3, by simp, by decide +kernel⟩

/-! ## C16 `eval` -/

/-- Defined and right for at most 63 bits if the input covers the support. -/
theorem C16_eval (f : List (BDD m)) (inp : List Nat) (hl : f.length ≤ 63)
    (hf : Fits inp.length f) : evalFn f inp = .ok (uAt f (asgOf inp)) := by
  obtain ⟨n, hn⟩ := evalLoop_total f 0 (by omega) hf
  have := evalLoop_sound f 0 n hn
  rw [pow_zero, one_mul] at this
  unfold evalFn
  rw [hn, this]

/-- Whatever the length of function and input: if a value is returned, it is the right one. -/
theorem C16_eval_sound (f : List (BDD m)) (inp : List Nat) (n : Nat) (h : evalFn f inp = .ok n) :
    n = uAt f (asgOf inp) := by
  have := evalLoop_sound f 0 n h
  rwa [pow_zero, one_mul] at this

/-- Otherwise the behaviour is undefined; there is no third outcome. -/
theorem C16_eval_ub (f : List (BDD m)) (inp : List Nat) :
    (∃ n, evalFn f inp = .ok n) ∨ evalFn f inp = .error .ub := by
  have hd : ∀ d : DD, (∃ b, d.evalIn inp = .ok b) ∨ d.evalIn inp = .error .ub := by
    intro d
    induction d with
    | one => exact .inl ⟨_, rfl⟩
    | node v t c e iht ihe =>
      simp only [DD.evalIn, bind, Except.bind]
      by_cases hv : v < inp.length
      · rw [vget_eq inp v 0 hv]
        simp only
        split
        · exact iht
        · rcases ihe with ⟨b, hb⟩ | hb <;> rw [hb]
          · exact .inl ⟨_, rfl⟩
          · exact .inr rfl
      · rw [vget_error inp v (by omega)]
        exact .inr rfl
  have hl : ∀ (f : List (BDD m)) i, (∃ n, evalLoop inp i f = .ok n) ∨
      evalLoop inp i f = .error .ub := by
    intro f
    induction f with
    | nil => exact fun i => .inl ⟨_, rfl⟩
    | cons b bs ih =>
      intro i
      simp only [evalLoop, BDD.evalIn, bind, Except.bind]
      rcases hd b.edge.n with ⟨r, hr⟩ | hr <;> rw [hr]
      · simp only
        split
        · split
          · exact .inr rfl
          · rcases ih (i + 1) with ⟨n, hn⟩ | hn <;> rw [hn]
            · exact .inl ⟨_, rfl⟩
            · exact .inr rfl
        · exact ih (i + 1)
      · exact .inr rfl
  exact hl f 0

/-- An input that does not reach the top variable is undefined behaviour. -/
theorem C16_eval_short_ub (b : BDD m) (f : List (BDD m)) (inp : List Nat) (i : Nat)
    (h : IsTop b i) (hs : inp.length ≤ i) : evalFn (b :: f) inp = .error .ub := by
  obtain ⟨t, c, e, hn⟩ := isTop_node h
  simp only [evalFn, evalLoop, BDD.evalIn, hn, DD.evalIn, vget_error inp i hs, bind, Except.bind]

example : ([BDD.var 0, (BDD.var 0).xor (.var 2)] : List (BDD Mgr.id)).length ≤ 63 ∧
    Fits [1, 0, 0].length ([BDD.var 0, (BDD.var 0).xor (.var 2)] : List (BDD Mgr.id)) :=
  ⟨by decide, by decide +kernel⟩

example : evalFn ([BDD.var 0, (BDD.var 0).xor (.var 2)] : List (BDD Mgr.id)) [1, 0, 0] = .ok 3 := by
  decide +kernel

/-! ## C18 `count_minterms` -/

theorem C18_count_minterms (f : BDD m) (N : Nat) (hN : Fits N [f]) (a : Edge)
    (ha : a ∈ f.edge.n.reach f.edge.neg) :
    NMap.find (countMinterms f) a = some (mean N (fun x => if a.eval x then 1 else 0)) := by
  rw [countMinterms_find f ha]
  have : ∀ v ∈ a.n.vars, v < N := fun v hv => hN f (by simp) v (by
    unfold BDD.supportIndices; rw [List.mem_dedup]; exact DD.reach_vars ha v hv)
  rw [Edge.frac_eq_mean N (DD.reach_wf f.wf ha) this]
  rfl

/-- In particular the root. -/
theorem C18_count_minterms_root (f : BDD m) (N : Nat) (hN : Fits N [f]) :
    NMap.find (countMinterms f) f.edge = some ((count N f.eval : ℚ) / 2 ^ N) := by
  rw [C18_count_minterms f N hN f.edge (DD.self_mem_reach _ _)]
  congr 1
  exact mean_ind_count N f.eval

theorem fits_xor01 : Fits 2 [(BDD.var 0 : BDD Mgr.id).xor (.var 1)] := by
  decide +kernel

example : Fits 2 [(BDD.var 0 : BDD Mgr.id).xor (.var 1)] ∧
    (BDD.var 1 : BDD Mgr.id).not.edge ∈ (((BDD.var 0 : BDD Mgr.id).xor (.var 1)).edge.n.reach
      ((BDD.var 0 : BDD Mgr.id).xor (.var 1)).edge.neg) :=
  ⟨fits_xor01, by decide +kernel⟩

/-! ## C19 `count_solutions` -/

/-- Variable order = index order, indices below 2^64 (the width of the exponent). -/
theorem C19_count_solutions (hm : m.Mono) (f : BDD m) (tl : Nat) (htl : tl = terminalLevel [[f]])
    (h64 : tl ≤ 2 ^ 64) (a : Edge) (ha : a ∈ f.edge.n.reach f.edge.neg) (i : Nat)
    (hi : a.n = .one ∧ i = tl ∨ ∃ t c e, a.n = .node i t c e) :
    NMap.find (countSolutions f) a = some (countFrom i (tl - i) a.eval : ℚ) := by
  rw [countSolutions_find f ha]
  have hwf := DD.reach_wf f.wf ha
  have hv : ∀ v ∈ a.n.vars, v < tl := fun v hv => by
    rw [htl]
    refine terminalLevel_gt (f := [f]) (by simp) (b := f) (by simp) ?_
    unfold BDD.supportIndices; rw [List.mem_dedup]; exact DD.reach_vars ha v hv
  unfold solPure
  rw [← htl, solutionPure_eq hm tl h64 a.n a.neg hwf hv]
  have hil : i ≤ tl := by
    rcases hi with ⟨_, h⟩ | ⟨t, c, e, h⟩
    · omega
    · exact (hv i (by rw [h]; simp [DD.vars])).le
  have hlev : nodeLevel tl a.n = i := by
    rcases hi with ⟨h, rfl⟩ | ⟨t, c, e, h⟩ <;> rw [h] <;> rfl
  have hge : ∀ v ∈ a.n.vars, i ≤ v := by
    rcases hi with ⟨h, _⟩ | ⟨t, c, e, h⟩ <;> rw [h] at hwf ⊢
    · simp [DD.vars]
    · intro v hv
      simp only [DD.vars, List.mem_cons, List.mem_append] at hv
      rcases hv with rfl | hv | hv
      · exact le_rfl
      · exact (DD.Below.vars_lt hm hwf.1 hwf.2.2.1 v hv).le
      · exact (DD.Below.vars_lt hm hwf.2.1 hwf.2.2.2.1 v hv).le
  have hs := count_split i (tl - i) a.eval (fun x y h => by
    simp only [Edge.eval]
    rw [DD.eval_congr (fun v hv => h v (hge v hv))])
  rw [show i + (tl - i) = tl by omega] at hs
  have hc := count_eq_mean tl a.eval
  rw [hs, ← Edge.frac_eq_mean tl hwf hv] at hc
  rw [hlev]
  congr 1
  have e : (2 : ℚ) ^ tl = 2 ^ i * 2 ^ (tl - i) := by rw [← pow_add]; congr 1; omega
  have h2 : (2 : ℚ) ^ i ≠ 0 := by positivity
  rw [e] at hc
  push_cast at hc
  apply mul_left_cancel₀ h2
  rw [hc]; ring

/-- A function whose top variable is 1 and which skips variable 2. -/
example : Mgr.id.Mono ∧ terminalLevel [[(BDD.var 1 : BDD Mgr.id).and (.var 3)]] = 4 ∧
    NMap.find (countSolutions ((BDD.var 1 : BDD Mgr.id).and (.var 3)))
      ((BDD.var 1 : BDD Mgr.id).and (.var 3)).edge = some 2 ∧
    ((BDD.var 1 : BDD Mgr.id).and (.var 3)).edge.n = .node 1 (.node 3 .one true .one) true .one :=
  ⟨Mgr.id_mono, by decide +kernel, by decide +kernel, by decide +kernel⟩

/-! ## C20 `random_satisfying_input` -/

/-- Provided no draw is exactly 0. -/
theorem C20_random_satisfying_input_partial (hm : m.Mono) (f : BDD m) (maxLevel : Nat)
    (hs : ∃ x, f.eval x = true) (hN : Fits maxLevel [f]) (rs : Nat → Nat)
    (hrs : ∀ i, rs i ≤ randMax) (hpos : ∀ i, rs i ≠ 0) :
    ∃ l, randomSatisfyingInput f (countMinterms f) maxLevel rs = .ok l ∧ l.length = maxLevel ∧
      (∀ b ∈ l, b = 0 ∨ b = 1) ∧ f.eval (asgOf l) = true := by
  obtain ⟨l, hl, hlen, hb, hx⟩ := randomSatLoop_spec hm (countMinterms f) rs
    (fun i => ⟨Nat.pos_of_ne_zero (hpos i), hrs i⟩) maxLevel 0 f.edge f.wf
    (fun b hb => countMinterms_find f hb)
    (fun v hv => ⟨Nat.zero_le _, by
      have := hN f (by simp) v (by unfold BDD.supportIndices; rw [List.mem_dedup]; exact hv)
      omega⟩)
    ((frac_pos_iff f.wf).mpr hs)
  refine ⟨l, hl, hlen, fun b hb' => by have := hb b hb'; omega, ?_⟩
  exact hx _ (fun i _ => by rw [Nat.zero_add]; rfl)

/-- The claim for all draws is false: drawing 0 follows a then-branch without solutions. -/
theorem C20_random_satisfying_input_false : ¬ ∀ (f : BDD Mgr.id) (maxLevel : Nat),
    (∃ x, f.eval x = true) → Fits maxLevel [f] → ∀ rs : Nat → Nat, (∀ i, rs i ≤ randMax) →
    ∃ l, randomSatisfyingInput f (countMinterms f) maxLevel rs = .ok l ∧
      f.eval (asgOf l) = true := by
  intro h
  obtain ⟨l, hl, hv⟩ := h (BDD.var 0).not 1 ⟨fun _ => false, by simp⟩ (by decide +kernel) (fun _ => 0) (fun _ => Nat.zero_le _)
  have : randomSatisfyingInput (BDD.var 0 : BDD Mgr.id).not (countMinterms (BDD.var 0 : BDD Mgr.id).not) 1
      (fun _ => 0) = .ok [1] := by decide +kernel
  rw [this] at hl
  cases hl
  simp [asgOf] at hv

example : (∃ x, ((BDD.var 0 : BDD Mgr.id).xor (.var 1)).eval x = true) ∧
    Fits 2 [(BDD.var 0 : BDD Mgr.id).xor (.var 1)] ∧
    ∀ i : Nat, (fun _ : Nat => 7) i ≤ randMax ∧ (fun _ : Nat => 7) i ≠ 0 :=
  ⟨⟨fun v => v = 0, by simp⟩, fits_xor01, fun i => by simp [randMax]⟩

end Verif

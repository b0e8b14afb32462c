import Verif.SpecFloatAdd
import Verif.Proofs.AddErrors
import Verif.Proofs.FloatMetrics

/-! # Lemmas about ADDs on `double`s with merged constants -/

namespace Verif

variable {m : Mgr} {A : AddEnv}

/-- The only constant close to 0 is 0. -/
def CTab.NoTiny (eps : ℚ) (s : CTab) : Prop := ∀ r ∈ s.consts, |r| < eps → r = 0

theorem CTab.Sep.noTiny {eps : ℚ} {s : CTab} (h : s.Sep eps) : s.NoTiny eps := fun r hr hlt => by
  have := h r hr 0 (by simpa using hlt)
  simpa using this

/-! ## One constant -/

theorem addConst_cases (A : AddEnv) (v : ℚ) (s : CTab) :
    let w := if |v| < A.eps then 0 else v
    ((addConst A v s).1 ∈ s.consts ∧ ((addConst A v s).1 = w ∨ |(addConst A v s).1 - w| < A.eps) ∧
      (addConst A v s).2.consts = s.consts) ∨
    ((addConst A v s).1 = w ∧ (addConst A v s).2.consts = w :: s.consts) := by
  intro w
  unfold addConst
  simp only []
  split
  · rename_i r hr
    have := List.mem_of_getElem? hr
    rw [List.mem_filter, decide_eq_true_eq] at this
    exact .inl ⟨this.1, this.2, rfl⟩
  · exact .inr ⟨rfl, rfl⟩

theorem addConst_int (_h0 : 0 < A.eps) (h1 : A.eps ≤ 1) (z : ℤ) (s : CTab) (hs : s.Sep A.eps) :
    (addConst A z s).1 = z ∧ (addConst A z s).2.Sep A.eps := by
  have hw : (if |(z : ℚ)| < A.eps then 0 else (z : ℚ)) = z := by
    split
    · rename_i h
      have hz : |z| < 1 := by exact_mod_cast lt_of_lt_of_le h h1
      rw [Int.abs_lt_one_iff.mp hz]; simp
    · rfl
  have := addConst_cases A z s
  simp only [hw] at this
  rcases this with ⟨a, b, c⟩ | ⟨a, b⟩
  · refine ⟨?_, fun r hr => hs r (c ▸ hr)⟩
    rcases b with b | b
    · exact b
    · exact hs _ a z b
  · refine ⟨a, fun r hr y hy => ?_⟩
    rw [b, List.mem_cons] at hr
    rcases hr with rfl | hr
    · have : |z - y| < 1 := by exact_mod_cast lt_of_lt_of_le hy h1
      have := Int.abs_lt_one_iff.mp this
      have : z = y := by omega
      rw [this]
    · exact hs r hr y hy

/-- A value that is not negative: at most `eps` away, not negative. -/
theorem addConst_near (h0 : 0 < A.eps) (v : ℚ) (hv : 0 ≤ v) (s : CTab) (hs : s.NoTiny A.eps) :
    |(addConst A v s).1 - v| ≤ A.eps ∧ 0 ≤ (addConst A v s).1 ∧ (addConst A v s).2.NoTiny A.eps := by
  by_cases hlt : |v| < A.eps
  · have := addConst_cases A v s
    simp only [hlt, if_true] at this
    have hz : (addConst A v s).1 = 0 := by
      rcases this with ⟨a, b | b, c⟩ | ⟨a, b⟩
      · exact b
      · exact hs _ a (by simpa using b)
      · exact a
    refine ⟨by rw [hz, zero_sub, abs_neg]; exact hlt.le, hz.ge, ?_⟩
    rcases this with ⟨a, b, c⟩ | ⟨a, b⟩
    · exact fun r hr => hs r (c ▸ hr)
    · intro r hr h
      rw [b, List.mem_cons] at hr
      rcases hr with rfl | hr
      · rfl
      · exact hs r hr h
  · have := addConst_cases A v s
    simp only [hlt, if_false] at this
    rw [abs_of_nonneg hv, not_lt] at hlt
    rcases this with ⟨a, b, c⟩ | ⟨a, b⟩
    · refine ⟨?_, ?_, fun r hr => hs r (c ▸ hr)⟩
      · rcases b with b | b
        · rw [b]; simpa using h0.le
        · exact b.le
      · rcases b with b | b
        · rw [b]; exact hv
        · have := (abs_lt.mp b).1; linarith
    · refine ⟨by rw [a]; simpa using h0.le, by rw [a]; exact hv, ?_⟩
      intro r hr h
      rw [b, List.mem_cons] at hr
      rcases hr with rfl | hr
      · rw [abs_of_nonneg hv] at h; linarith
      · exact hs r hr h

/-! ## Apply -/

theorem AD.applyE_spec {op : ℚ → ℚ → ℚ} (P : CTab → Prop) (R : ℚ → ℚ → ℚ → Prop) : (k : Nat) → (a b : AD) →
    (s : CTab) → a.WF m → b.WF m → a.size + b.size ≤ k → P s →
    (∀ x s, P s → R (a.eval x) (b.eval x) (addConst A (op (a.eval x) (b.eval x)) s).1 ∧
      P (addConst A (op (a.eval x) (b.eval x)) s).2) →
    P (AD.applyE m A op k a b s).2 ∧ ∀ x, R (a.eval x) (b.eval x) ((AD.applyE m A op k a b s).1.eval x)
  | 0, a, b, s, ha, hb, hk, hP, hR => by
      cases a with
      | const p => cases b with
        | const q => exact ⟨(hR (fun _ => false) s hP).2, fun x => (hR x s hP).1⟩
        | node w t e => simp [size] at hk
      | node w t e => simp [size] at hk
  | k + 1, a, b, s, ha, hb, hk, hP, hR => by
      simp only [AD.applyE]
      split
      · rename_i h
        obtain ⟨h1, h2⟩ := AD.top2_none h
        rw [h1, h2] at hR
        rw [h1, h2]
        exact ⟨(hR (fun _ => false) s hP).2, fun x => (hR x s hP).1⟩
      · rename_i v h
        obtain ⟨hA, hB, hor⟩ := AD.top2_spec h
        have hsz : ∀ c, (a.cof v c).size + (b.cof v c).size ≤ k := by
          intro c
          have h1 := AD.cof_size_le a v c
          have h2 := AD.cof_size_le b v c
          rcases hor with h3 | h3
          · have := AD.cof_size_lt a v c h3; omega
          · have := AD.cof_size_lt b v c h3; omega
        have hR' : ∀ c x s, P s → R ((a.cof v c).eval x) ((b.cof v c).eval x)
            (addConst A (op ((a.cof v c).eval x) ((b.cof v c).eval x)) s).1 ∧
            P (addConst A (op ((a.cof v c).eval x) ((b.cof v c).eval x)) s).2 := by
          intro c x s hs
          rw [AD.cof_eval ha hA, AD.cof_eval hb hB]
          exact hR _ s hs
        obtain ⟨p1, e1⟩ := AD.applyE_spec P R k (a.cof v true) (b.cof v true) s (AD.cof_wf ha v true)
          (AD.cof_wf hb v true) (hsz true) hP (hR' true)
        obtain ⟨p2, e2⟩ := AD.applyE_spec P R k (a.cof v false) (b.cof v false) _ (AD.cof_wf ha v false)
          (AD.cof_wf hb v false) (hsz false) p1 (hR' false)
        refine ⟨p2, fun x => ?_⟩
        rw [AD.eval_mk']
        have i1 := e1 x
        have i2 := e2 x
        rw [AD.cof_eval ha hA, AD.cof_eval hb hB] at i1 i2
        by_cases hx : x v = true
        · rw [if_pos hx]
          have : Function.update x v true = x := by rw [← hx, Function.update_eq_self]
          rwa [this] at i1
        · rw [if_neg hx]
          have hx' : x v = false := by simpa using hx
          have : Function.update x v false = x := by rw [← hx', Function.update_eq_self]
          rwa [this] at i2

theorem AD.cof_vars (a : AD) (v : Nat) (b : Bool) : ∀ w ∈ (a.cof v b).vars, w ∈ a.vars := by
  cases a with
  | const => intro w hw; exact hw
  | node u t e =>
    intro w hw
    simp only [AD.cof] at hw
    split at hw
    · split at hw <;> simp [AD.vars, hw]
    · exact hw

theorem AD.applyE_vars {m : Mgr} {A : AddEnv} {op : ℚ → ℚ → ℚ} : (k : Nat) → (a b : AD) → (s : CTab) →
    ∀ w ∈ (AD.applyE m A op k a b s).1.vars, w ∈ a.vars ∨ w ∈ b.vars
  | 0, a, b, s => by intro w hw; simp [AD.applyE, AD.vars] at hw
  | k + 1, a, b, s => by
      intro w hw
      simp only [AD.applyE] at hw
      split at hw
      · simp [AD.vars] at hw
      · rename_i v h
        obtain ⟨-, -, hor⟩ := AD.top2_spec h
        have hv : v ∈ a.vars ∨ v ∈ b.vars := by
          rcases hor with ⟨t, e, rfl⟩ | ⟨t, e, rfl⟩
          · exact .inl (by simp [AD.vars])
          · exact .inr (by simp [AD.vars])
        have i1 := AD.applyE_vars (m := m) (A := A) (op := op) k (a.cof v true) (b.cof v true) s w
        have i2 := AD.applyE_vars (m := m) (A := A) (op := op) k (a.cof v false) (b.cof v false)
          (AD.applyE m A op k (a.cof v true) (b.cof v true) s).2 w
        have key : w = v ∨ w ∈ (AD.applyE m A op k (a.cof v true) (b.cof v true) s).1.vars ∨
            w ∈ (AD.applyE m A op k (a.cof v false) (b.cof v false)
              (AD.applyE m A op k (a.cof v true) (b.cof v true) s).2).1.vars := by
          unfold AD.mk' at hw
          split at hw
          · exact .inr (.inl hw)
          · simpa [AD.vars] using hw
        rcases key with rfl | h1 | h1
        · exact hv
        · exact (i1 h1).imp (AD.cof_vars _ _ _ _) (AD.cof_vars _ _ _ _)
        · exact (i2 h1).imp (AD.cof_vars _ _ _ _) (AD.cof_vars _ _ _ _)

/-- Whole results: exact. -/
theorem ADD.applyE_int (h0 : 0 < A.eps) (h1 : A.eps ≤ 1) (op op' : ℚ → ℚ → ℚ) (f g : ADD m) (s : CTab)
    (hs : s.Sep A.eps) (hop : ∀ x, op (f.eval x) (g.eval x) = op' (f.eval x) (g.eval x))
    (hz : ∀ x, ∃ z : ℤ, op' (f.eval x) (g.eval x) = z) :
    (ADD.applyE A op f g s).1 = ADD.apply op' f g ∧ (ADD.applyE A op f g s).2.Sep A.eps := by
  obtain ⟨p, e⟩ := AD.applyE_spec (A := A) (op := op) (CTab.Sep A.eps) (fun p q r => r = op' p q)
    (f.d.size + g.d.size) f.d g.d s f.wf g.wf le_rfl hs (fun x s hs => by
      have h := hop x
      obtain ⟨z, hz⟩ := hz x
      simp only [ADD.eval] at h hz
      rw [h, hz]
      exact addConst_int h0 h1 z s hs)
  refine ⟨ADD.ext_eval fun x => ?_, p⟩
  rw [ADD.eval_apply]
  exact e x

theorem Nearest.int {rnd : ℚ → ℚ} (h : Nearest rnd) (z : ℤ) (hz : |z| ≤ 2 ^ 53) : rnd (z : ℚ) = z := by
  refine h.exact ?_ ?_
  · have := isDouble_div z 0 hz (by omega)
    simpa using this
  · have h1 : ((|z| : ℤ) : ℚ) ≤ 2 ^ 53 := by exact_mod_cast hz
    rw [Int.cast_abs] at h1
    exact h1.trans (pow_le_pow_right₀ (by norm_num) (by norm_num))

theorem Nearest.nat53 {rnd : ℚ → ℚ} (h : Nearest rnd) (k : Nat) (hk : k ≤ 2 ^ 53) : rnd (k : ℚ) = k := by
  have := h.int k (by rw [Nat.abs_cast]; exact_mod_cast hk)
  push_cast at this
  exact this

/-! ## Conversion of a vector -/

theorem forestLoopE_eq (hr : Nearest A.rnd) (h0 : 0 < A.eps) (h1 : A.eps ≤ 1) :
    ∀ (l : List (BDD m)) (i : Nat) (res pow : ADD m) (s : CTab), s.Sep A.eps → i + l.length ≤ 53 →
    (∀ x, ∃ n : Nat, res.eval x = n ∧ n < 2 ^ i) → (∀ x, pow.eval x = 2 ^ i) →
    (forestLoopE A (.const 2) l res pow s).1 = forestLoop l res pow ∧
      (forestLoopE A (.const 2) l res pow s).2.Sep A.eps := by
  intro l
  induction l with
  | nil => intro i res pow s hs _ _ _; exact ⟨rfl, hs⟩
  | cons b bs ih =>
    intro i res pow s hs hi hres hpow
    rw [List.length_cons] at hi
    have hle : (2 : Nat) ^ (i + 1) ≤ 2 ^ 53 := Nat.pow_le_pow_right (by norm_num) (by omega)
    have hb : ∀ n : Nat, n ≤ 2 ^ (i + 1) → |(n : ℤ)| ≤ 2 ^ 53 := fun n hn => by
      rw [Nat.abs_cast]; exact_mod_cast hn.trans hle
    have i1 := hr.int
    obtain ⟨e1, s1⟩ := ADD.applyE_int h0 h1 (fun p q => A.rnd (p * q)) (fun p q => p * q) res (.const 2) s hs
      (fun x => by
        obtain ⟨n, hn, hlt⟩ := hres x
        simp only [ADD.eval_const, hn]
        have := hr.int ((n * 2 : Nat) : ℤ) (hb _ (by rw [pow_succ]; omega))
        push_cast at this ⊢
        exact this)
      (fun x => by
        obtain ⟨n, hn, -⟩ := hres x
        exact ⟨n * 2, by simp [hn]⟩)
    obtain ⟨e2, s2⟩ := ADD.applyE_int h0 h1 (fun p q => A.rnd (p * q)) (fun p q => p * q) pow (.const 2) _ s1
      (fun x => by
        simp only [ADD.eval_const, hpow]
        have := hr.int ((2 ^ i * 2 : Nat) : ℤ) (hb _ (by rw [pow_succ]))
        push_cast at this ⊢
        exact this)
      (fun x => ⟨2 ^ i * 2, by simp [hpow]⟩)
    have hm : ∀ x, ∃ n : Nat, (ADD.apply (fun p q => p * q) res (.const 2)).eval x +
        (ADD.ofBDD b).eval x = n ∧ n < 2 ^ (i + 1) := fun x => by
      obtain ⟨n, hn, hlt⟩ := hres x
      rw [ADD.eval_apply, ADD.eval_const, ADD.eval_ofBDD, hn]
      rw [pow_succ]
      split
      · exact ⟨n * 2 + 1, by push_cast; ring, by omega⟩
      · exact ⟨n * 2, by push_cast; ring, by omega⟩
    obtain ⟨e3, s3⟩ := ADD.applyE_int h0 h1 (fun p q => A.rnd (p + q)) (fun p q => p + q)
      (ADD.apply (fun p q => p * q) res (.const 2)) (.ofBDD b) _ s2
      (fun x => by
        obtain ⟨n, hn, hlt⟩ := hm x
        simp only [hn]
        have := hr.int (n : ℤ) (hb n hlt.le)
        push_cast at this
        exact this)
      (fun x => by
        obtain ⟨n, hn, -⟩ := hm x
        exact ⟨n, by simp only [hn]; push_cast; rfl⟩)
    have key := ih (i + 1) (ADD.apply (fun p q => p + q) (ADD.apply (fun p q => p * q) res (.const 2)) (.ofBDD b))
      (ADD.apply (fun p q => p * q) pow (.const 2)) _ s3 (by omega)
      (fun x => by rw [ADD.eval_apply]; exact hm x)
      (fun x => by rw [ADD.eval_apply, hpow, ADD.eval_const, pow_succ])
    simp only [forestLoopE, ADD.mulE, ADD.addE, forestLoop, ADD.mul, ADD.add]
    simp only [e1, e2, e3]
    exact key

theorem bddForestToAddE_eq (hr : Nearest A.rnd) (h0 : 0 < A.eps) (h1 : A.eps ≤ 1) (r : NumRep) (f : List (BDD m))
    (hf : f.length ≤ 53) (s : CTab) (hs : s.Sep A.eps) : ∃ s', s'.Sep A.eps ∧
      bddForestToAddE A r f s = (bddForestToAdd r f).map (fun a => (a, s')) := by
  unfold bddForestToAddE bddForestToAdd
  cases hrev : (withSignBit r f).reverse with
  | nil => exact ⟨s, hs, rfl⟩
  | cons sign rest =>
    simp only []
    obtain ⟨e1, s1⟩ := ADD.applyE_int h0 h1 (fun p q => A.rnd (p + q)) (fun p q => p + q) (.const 1 : ADD m) (.const 1) s hs
      (fun x => by
        have := hr.int 2 (by norm_num)
        simp only [ADD.eval_const]
        push_cast at this
        norm_num
        exact this)
      (fun x => ⟨2, by simp only [ADD.eval_const]; norm_num⟩)
    have etwo : ADD.apply (fun p q => p + q) (.const 1 : ADD m) (.const 1) = .const 2 := ADD.ext_eval fun x => by
      rw [ADD.eval_apply]; simp only [ADD.eval_const]; norm_num
    rw [etwo] at e1
    have hlen : rest.length + 1 = (withSignBit r f).length := by
      have := congrArg List.length hrev
      rw [List.length_reverse, List.length_cons] at this
      exact this.symm
    have hlen2 : rest.length ≤ 53 := by
      cases r <;> simp [withSignBit] at hlen <;> omega
    obtain ⟨e2, s2⟩ := forestLoopE_eq hr h0 h1 rest 0 (.const 0) (.const 1) _ s1 (by omega)
      (fun x => ⟨0, by simp, by simp⟩) (fun x => by simp)
    have hp : (2 : Nat) ^ rest.length ≤ 2 ^ 53 := Nat.pow_le_pow_right (by norm_num) hlen2
    obtain ⟨e3, s3⟩ := ADD.applyE_int h0 h1 (fun p q => A.rnd (p * q)) (fun p q => p * q) (.ofBDD sign)
      (forestLoop rest (.const 0) (.const 1)).2 _ s2
      (fun x => by
        rw [(forestLoop_spec rest _ _ x).2]
        simp only [ADD.eval_const, ADD.eval_ofBDD, one_mul]
        split
        · have := hr.int ((2 ^ rest.length : Nat) : ℤ) (by rw [Nat.abs_cast]; exact_mod_cast hp)
          push_cast at this
          rw [one_mul]; exact this
        · have := hr.int 0 (by norm_num)
          rw [zero_mul]; exact_mod_cast this)
      (fun x => by
        rw [(forestLoop_spec rest _ _ x).2]
        simp only [ADD.eval_const, ADD.eval_ofBDD, one_mul]
        split
        · exact ⟨2 ^ rest.length, by push_cast; ring⟩
        · exact ⟨0, by simp⟩)
    have hv : ∀ x, ∃ z : ℤ, |z| ≤ 2 ^ 53 ∧ (forestLoop rest (.const 0) (.const 1)).1.eval x -
        (ADD.apply (fun p q => p * q) (.ofBDD sign) (forestLoop rest (.const 0) (.const 1)).2).eval x = z := fun x => by
      rw [ADD.eval_apply, (forestLoop_spec rest _ _ x).1, (forestLoop_spec rest _ _ x).2]
      simp only [ADD.eval_const, ADD.eval_ofBDD, one_mul, zero_mul, zero_add]
      have hu : uAt rest.reverse x < 2 ^ rest.length := by
        have := uAt_lt rest.reverse x
        rwa [List.length_reverse] at this
      have hp' : (2 : ℤ) ^ rest.length ≤ 2 ^ 53 := by exact_mod_cast hp
      have hu' : (uAt rest.reverse x : ℤ) < 2 ^ rest.length := by exact_mod_cast hu
      split
      · refine ⟨(uAt rest.reverse x : ℤ) - 2 ^ rest.length, ?_, by push_cast; ring⟩
        rw [abs_le]; constructor <;> omega
      · refine ⟨(uAt rest.reverse x : ℤ), ?_, by push_cast; ring⟩
        rw [abs_le]; constructor <;> omega
    obtain ⟨e4, s4⟩ := ADD.applyE_int h0 h1 (fun p q => A.rnd (p - q)) (fun p q => p - q)
      (forestLoop rest (.const 0) (.const 1)).1
      (ADD.apply (fun p q => p * q) (.ofBDD sign) (forestLoop rest (.const 0) (.const 1)).2) _ s3
      (fun x => by
        obtain ⟨z, hz, hx⟩ := hv x
        simp only [hx]
        exact hr.int z hz)
      (fun x => by
        obtain ⟨z, hz, hx⟩ := hv x
        exact ⟨z, hx⟩)
    refine ⟨_, s4, ?_⟩
    simp only [ADD.addE, ADD.mulE, ADD.subE, ADD.sub, ADD.mul, Except.map]
    simp only [e1, e2, e3]
    rw [← e4]


theorem absoluteDifferenceAddE_eq (hr : Nearest A.rnd) (h0 : 0 < A.eps) (h1 : A.eps ≤ 1) (r : NumRep)
    (f g : List (BDD m)) (hf : f.length ≤ 53) (hg : g.length ≤ 53) (s : CTab) (hs : s.Sep A.eps) :
    ∃ s', s'.Sep A.eps ∧ absoluteDifferenceAddE A r f g s = (absoluteDifferenceAdd r f g).map (fun a => (a, s')) := by
  obtain ⟨s1, hs1, e1⟩ := bddForestToAddE_eq hr h0 h1 r f hf s hs
  obtain ⟨s2, hs2, e2⟩ := bddForestToAddE_eq hr h0 h1 r g hg s1 hs1
  by_cases hok : SignOk r f ∧ SignOk r g
  · obtain ⟨a, ha, ea⟩ := bddForestToAdd_spec r f hok.1
    obtain ⟨b, hb, eb⟩ := bddForestToAdd_spec r g hok.2
    have hb53 : ∀ x, |valAt r f x - valAt r g x| ≤ 2 ^ 53 := fun x => by
      rw [valAt_eq, valAt_eq]
      refine (repVal_diff_lt r _ _).le.trans ?_
      exact pow_le_pow_right₀ (by norm_num) (by simp [hf, hg])
    have hrn : ∀ x, A.rnd (a.eval x - b.eval x) = a.eval x - b.eval x := fun x => by
      rw [ea, eb]
      have := hr.int (valAt r f x - valAt r g x) (hb53 x)
      push_cast at this
      exact this
    obtain ⟨e3, s3⟩ := ADD.applyE_int h0 h1 (fun p q => |A.rnd (p - q)|) (fun p q => |p - q|) a b s2 hs2
      (fun x => by simp only [hrn])
      (fun x => ⟨|valAt r f x - valAt r g x|, by simp only [ea, eb]; push_cast; rfl⟩)
    refine ⟨_, s3, ?_⟩
    simp only [absoluteDifferenceAddE, absoluteDifferenceAdd, e1, e2, ha, hb, bind, Except.bind, Except.map]
    rw [← e3]
  · refine ⟨s, hs, ?_⟩
    simp only [absoluteDifferenceAddE, absoluteDifferenceAdd, e1, bind, Except.bind]
    cases ha : bddForestToAdd r f with
    | error e => rfl
    | ok a =>
      simp only [Except.map, e2]
      cases hb : bddForestToAdd r g with
      | error e => rfl
      | ok b =>
        exfalso
        apply hok
        constructor
        · rintro rfl rfl; simp [bddForestToAdd, withSignBit] at ha
        · rintro rfl rfl; simp [bddForestToAdd, withSignBit] at hb

theorem xorDifferenceAddE_eq (hr : Nearest A.rnd) (h0 : 0 < A.eps) (h1 : A.eps ≤ 1)
    (f g : List (BDD m)) (hf : f.length ≤ 53) (s : CTab) (hs : s.Sep A.eps) :
    ∃ s', s'.Sep A.eps ∧ xorDifferenceAddE A f g s = (xorDifferenceAdd f g).map (fun a => (a, s')) := by
  unfold xorDifferenceAddE xorDifferenceAdd
  split
  · exact ⟨s, hs, rfl⟩
  · exact bddForestToAddE_eq hr h0 h1 .baseTwo _ (by simp [hf]) s hs

theorem bitErrorSumE_eq (hr : Nearest A.rnd) (h0 : 0 < A.eps) (h1 : A.eps ≤ 1) :
    ∀ (f g : List (BDD m)) (acc : ADD m) (k : Nat) (s : CTab), s.Sep A.eps → k + f.length ≤ 2 ^ 53 →
    (∀ x, ∃ n : Nat, acc.eval x = n ∧ n ≤ k) →
    (bitErrorSumE A f g acc s).1 = bitErrorSum f g acc ∧ (bitErrorSumE A f g acc s).2.Sep A.eps := by
  intro f
  induction f with
  | nil => intro g acc k s hs _ _; exact ⟨rfl, hs⟩
  | cons a as ih =>
    intro g
    cases g with
    | nil => intro acc k s hs _ _; exact ⟨rfl, hs⟩
    | cons b bs =>
      intro acc k s hs hk hacc
      rw [List.length_cons] at hk
      have hn : ∀ x, ∃ n : Nat, acc.eval x + (ADD.ofBDD (a.xor b)).eval x = n ∧ n ≤ k + 1 := fun x => by
        obtain ⟨n, hn, hle⟩ := hacc x
        rw [hn, ADD.eval_ofBDD]
        split
        · exact ⟨n + 1, by push_cast; ring, by omega⟩
        · exact ⟨n, by ring, by omega⟩
      obtain ⟨e1, s1⟩ := ADD.applyE_int h0 h1 (fun p q => A.rnd (p + q)) (fun p q => p + q) acc
        (.ofBDD (a.xor b)) s hs
        (fun x => by
          obtain ⟨n, hn, hle⟩ := hn x
          simp only [hn]
          have := hr.int (n : ℤ) (by rw [Nat.abs_cast]; exact_mod_cast (by omega : n ≤ 2 ^ 53))
          push_cast at this
          exact this)
        (fun x => by
          obtain ⟨n, hn, hle⟩ := hn x
          exact ⟨n, by simp only [hn]; push_cast; rfl⟩)
      have key := ih bs (ADD.apply (fun p q => p + q) acc (.ofBDD (a.xor b))) (k + 1) _ s1 (by omega)
        (fun x => by rw [ADD.eval_apply]; exact hn x)
      simp only [bitErrorSumE, ADD.addE, bitErrorSum, ADD.add]
      rw [e1]
      exact key

/-! ## Whole-number metrics -/

section
variable (hr : Nearest A.rnd) (h0 : 0 < A.eps) (h1 : A.eps ≤ 1)
include hr h0 h1

theorem worstCaseErrorAddE_eq (r : NumRep) (f g : List (BDD m)) (hf : f.length ≤ 53) (hg : g.length ≤ 53)
    (s : CTab) (hs : s.Sep A.eps) : ∃ s', s'.Sep A.eps ∧
      worstCaseErrorAddE A r f g s = (worstCaseErrorAdd r f g).map (fun v => (v, s')) := by
  obtain ⟨s', hs', e⟩ := absoluteDifferenceAddE_eq hr h0 h1 r f g hf hg s hs
  refine ⟨s', hs', ?_⟩
  simp only [worstCaseErrorAddE, worstCaseErrorAdd, e]
  cases absoluteDifferenceAdd r f g with
  | error => rfl
  | ok a =>
    simp only [Except.map, bind, Except.bind]
    cases addTerminalValues a <;> rfl

theorem averageCaseErrorAddE_eq (dec : ℚ → ℚ) (r : NumRep) (f g : List (BDD m)) (hf : f.length ≤ 53)
    (hg : g.length ≤ 53) (s : CTab) (hs : s.Sep A.eps) : ∃ s', s'.Sep A.eps ∧
      averageCaseErrorAddE A dec r f g s = (averageCaseErrorAdd r f g).map (fun q => (dec q, s')) := by
  obtain ⟨s', hs', e⟩ := absoluteDifferenceAddE_eq hr h0 h1 r f g hf hg s hs
  refine ⟨s', hs', ?_⟩
  simp only [averageCaseErrorAddE, averageCaseErrorAdd, e]
  cases absoluteDifferenceAdd r f g with
  | error => rfl
  | ok a =>
    simp only [Except.map, bind, Except.bind]
    cases addTerminalValues a with
    | error => rfl
    | ok l => simp only []

theorem meanSquaredErrorAddE_eq (dec : ℚ → ℚ) (r : NumRep) (f g : List (BDD m)) (hf : f.length ≤ 53)
    (hg : g.length ≤ 53) (s : CTab) (hs : s.Sep A.eps) : ∃ s', s'.Sep A.eps ∧
      meanSquaredErrorAddE A dec r f g s = (meanSquaredErrorAdd r f g).map (fun q => (dec q, s')) := by
  obtain ⟨s', hs', e⟩ := absoluteDifferenceAddE_eq hr h0 h1 r f g hf hg s hs
  refine ⟨s', hs', ?_⟩
  simp only [meanSquaredErrorAddE, meanSquaredErrorAdd, e]
  cases absoluteDifferenceAdd r f g with
  | error => rfl
  | ok a =>
    simp only [Except.map, bind, Except.bind]
    cases addTerminalValues a with
    | error => rfl
    | ok l => simp only []

theorem worstCaseBitFlipErrorAddE_eq (f g : List (BDD m)) (hf : f.length ≤ 53)
    (s : CTab) (hs : s.Sep A.eps) : ∃ s', s'.Sep A.eps ∧
      worstCaseBitFlipErrorAddE A f g s = (worstCaseBitFlipErrorAdd f g).map (fun v => (v, s')) := by
  obtain ⟨s', hs', e⟩ := xorDifferenceAddE_eq hr h0 h1 f g hf s hs
  refine ⟨s', hs', ?_⟩
  simp only [worstCaseBitFlipErrorAddE, worstCaseBitFlipErrorAdd, e]
  cases xorDifferenceAdd f g with
  | error => rfl
  | ok a =>
    simp only [Except.map, bind, Except.bind]
    cases addTerminalValues a with
    | error => rfl
    | ok l => simp only []

theorem worstCaseBitFlipErrorE_eq (f g : List (BDD m)) (hf : f.length < 2 ^ 32)
    (s : CTab) (hs : s.Sep A.eps) : ∃ s', s'.Sep A.eps ∧
      worstCaseBitFlipErrorE A f g s = (worstCaseBitFlipError f g).map (fun v => (v, s')) := by
  obtain ⟨e1, s1⟩ := bitErrorSumE_eq hr h0 h1 f g (.const 0) 0 s hs (by omega) (fun x => ⟨0, by simp, le_rfl⟩)
  refine ⟨_, s1, ?_⟩
  simp only [worstCaseBitFlipErrorE, worstCaseBitFlipError]
  split
  · rfl
  · simp only [e1, bind, Except.bind, Except.map]

end


/-! ## Quotients of counts -/

theorem Nearest.nat_near {rnd : ℚ → ℚ} (hr : Nearest rnd) (k : Nat) (hk : k ≤ 2 ^ 64) :
    |rnd (k : ℚ) - k| ≤ k * (1 / 2 ^ 53) := by
  rcases Nat.eq_zero_or_pos k with rfl | hp
  · have := hr.nat53 0 (by norm_num)
    simp only [Nat.cast_zero] at this ⊢
    rw [this]; simp
  · refine hr.rel ?_ ?_
    · have h1 : (1 : ℚ) ≤ k := by exact_mod_cast hp
      exact le_trans ((div_le_one (pow_pos (by norm_num) _)).mpr (one_le_pow₀ (by norm_num))) h1
    · have h1 : (k : ℚ) ≤ 2 ^ 64 := by exact_mod_cast hk
      exact h1.trans (pow_le_pow_right₀ (by norm_num) (by norm_num))

/-- Both counts rounded and then their quotient. -/
theorem quot_near {rnd : ℚ → ℚ} (hr : Nearest rnd) (a b : Nat) (ha : a ≤ 2 ^ 64) (hb : b ≤ 2 ^ 64) (h0 : 0 < b) :
    rnd (b : ℚ) ≠ 0 ∧ |rnd (rnd (a : ℚ) / rnd (b : ℚ)) - a / b| ≤ a / b * (1 / 2 ^ 51) := by
  have hb0 : (0 : ℚ) < b := by exact_mod_cast h0
  have nb := abs_le.mp (hr.nat_near b hb)
  have na := abs_le.mp (hr.nat_near a ha)
  have b1 : (b : ℚ) * (1 - 1 / 2 ^ 53) ≤ rnd b := by linarith [nb.1]
  have b2 : rnd b ≤ (b : ℚ) * (1 + 1 / 2 ^ 53) := by linarith [nb.2]
  have a1 : (a : ℚ) * (1 - 1 / 2 ^ 53) ≤ rnd a := by linarith [na.1]
  have a2 : rnd a ≤ (a : ℚ) * (1 + 1 / 2 ^ 53) := by linarith [na.2]
  have hbp : 0 < rnd (b : ℚ) := lt_of_lt_of_le (mul_pos hb0 (by norm_num)) b1
  refine ⟨hbp.ne', ?_⟩
  rcases Nat.eq_zero_or_pos a with rfl | hap
  · have := hr.nat53 0 (by norm_num)
    simp only [Nat.cast_zero] at this ⊢
    rw [this, zero_div, this]; simp
  have ha1 : (1 : ℚ) ≤ a := by exact_mod_cast hap
  have hq0 : (0 : ℚ) < a / b := div_pos (by linarith) hb0
  set q := rnd (a : ℚ) / rnd (b : ℚ) with hq
  have hqb : q * rnd (b : ℚ) = rnd a := by rw [hq, div_mul_cancel₀ _ hbp.ne']
  have hab : (a : ℚ) / b * b = a := div_mul_cancel₀ _ hb0.ne'
  have lo : (a : ℚ) / b * (1 - 5 / 2 ^ 54) ≤ q := by
    rw [hq, le_div_iff₀ hbp]
    calc (a : ℚ) / b * (1 - 5 / 2 ^ 54) * rnd b ≤ (a : ℚ) / b * (1 - 5 / 2 ^ 54) * (b * (1 + 1 / 2 ^ 53)) :=
          mul_le_mul_of_nonneg_left b2 (mul_nonneg hq0.le (by norm_num))
      _ = (a : ℚ) / b * b * ((1 - 5 / 2 ^ 54) * (1 + 1 / 2 ^ 53)) := by ring
      _ = a * ((1 - 5 / 2 ^ 54) * (1 + 1 / 2 ^ 53)) := by rw [hab]
      _ ≤ a * (1 - 1 / 2 ^ 53) := mul_le_mul_of_nonneg_left (by norm_num) (by linarith)
      _ ≤ rnd a := a1
  have hi : q ≤ (a : ℚ) / b * (1 + 5 / 2 ^ 54) := by
    rw [hq, div_le_iff₀ hbp]
    calc rnd (a : ℚ) ≤ a * (1 + 1 / 2 ^ 53) := a2
      _ ≤ a * ((1 + 5 / 2 ^ 54) * (1 - 1 / 2 ^ 53)) := mul_le_mul_of_nonneg_left (by norm_num) (by linarith)
      _ = (a : ℚ) / b * b * ((1 + 5 / 2 ^ 54) * (1 - 1 / 2 ^ 53)) := by rw [hab]
      _ = (a : ℚ) / b * (1 + 5 / 2 ^ 54) * (b * (1 - 1 / 2 ^ 53)) := by ring
      _ ≤ (a : ℚ) / b * (1 + 5 / 2 ^ 54) * rnd b :=
          mul_le_mul_of_nonneg_left b1 (mul_nonneg hq0.le (by norm_num))
  have hlow : (1 : ℚ) / 2 ^ 65 ≤ q := by
    refine le_trans ?_ lo
    have hb64 : (b : ℚ) ≤ 2 ^ 64 := by exact_mod_cast hb
    have : (1 : ℚ) / 2 ^ 64 ≤ a / b := by
      rw [div_le_div_iff₀ (by norm_num) hb0]; nlinarith
    calc (1 : ℚ) / 2 ^ 65 ≤ 1 / 2 ^ 64 * (1 - 5 / 2 ^ 54) := by norm_num
      _ ≤ _ := mul_le_mul_of_nonneg_right this (by norm_num)
  have hhigh : q ≤ 2 ^ 65 := by
    refine le_trans hi ?_
    have ha64 : (a : ℚ) ≤ 2 ^ 64 := by exact_mod_cast ha
    have hb1 : (1 : ℚ) ≤ b := by exact_mod_cast h0
    have : (a : ℚ) / b ≤ 2 ^ 64 := by
      rw [div_le_iff₀ hb0]; nlinarith
    calc (a : ℚ) / b * (1 + 5 / 2 ^ 54) ≤ 2 ^ 64 * (1 + 5 / 2 ^ 54) :=
          mul_le_mul_of_nonneg_right this (by norm_num)
      _ ≤ 2 ^ 65 := by norm_num
  have hn := abs_le.mp (hr.rel
    (le_trans (one_div_le_one_div_of_le (by norm_num) (pow_le_pow_right₀ (by norm_num) (by norm_num))) hlow)
    (hhigh.trans (pow_le_pow_right₀ (by norm_num) (by norm_num))))
  rw [abs_le]
  have e1 : q * (1 / 2 ^ 53) ≤ (a : ℚ) / b * (1 + 5 / 2 ^ 54) * (1 / 2 ^ 53) :=
    mul_le_mul_of_nonneg_right hi (by norm_num)
  have e2 : (a : ℚ) / b * (1 + 5 / 2 ^ 54) * (1 / 2 ^ 53) ≤ (a : ℚ) / b * (3 / 2 ^ 54) := by
    rw [mul_assoc]; exact mul_le_mul_of_nonneg_left (by norm_num) hq0.le
  have e3 : (a : ℚ) / b * (1 / 2 ^ 51) = (a : ℚ) / b * (5 / 2 ^ 54) + (a : ℚ) / b * (3 / 2 ^ 54) := by ring
  constructor
  · linarith [hn.1]
  · linarith [hn.2]

/-- Counts of less than 53 bits: one rounding. -/
theorem quotAdd_exact {rnd : ℚ → ℚ} (hr : Nearest rnd) (a b : Nat) (ha : a ≤ 2 ^ 53) (hb : b ≤ 2 ^ 53) :
    rnd (rnd (a : ℚ) / rnd (b : ℚ)) = rnd (a / b) := by rw [hr.nat53 a ha, hr.nat53 b hb]


theorem fdiv_ok {a b q : ℚ} (h : fdiv a b = .ok q) : b ≠ 0 ∧ q = a / b := by
  unfold fdiv at h
  split at h
  · cases h
  · rename_i hb
    exact ⟨hb, (Except.ok.inj h).symm⟩

theorem fdiv_of_ne {a b : ℚ} (h : b ≠ 0) : fdiv a b = .ok (a / b) := by
  unfold fdiv; rw [if_neg h]

theorem u64_lt (n : Nat) : u64 n < 2 ^ 64 := Nat.mod_lt _ (by norm_num)

theorem foldl_u64_lt {α : Type _} (f : α → Nat) (l : List α) : l.foldl (fun s p => u64 (s + f p)) 0 < 2 ^ 64 := by
  rw [foldl_u64 f _ _ (by norm_num)]
  exact u64_lt _

section
variable (hr : Nearest A.rnd) (h0 : 0 < A.eps) (h1 : A.eps ≤ 1)
include hr h0 h1

theorem errorRateAddE_spec (f g : List (BDD m)) (hl : f.length = g.length) (hf : f.length ≤ 53) {N : Nat}
    (hfN : Fits N f) (hgN : Fits N g) (hN : N ≤ 63) (s : CTab) (hs : s.Sep A.eps) {q : ℚ}
    (h : errorRateAdd f g = .ok q) : ∃ v s', errorRateAddE A f g s = .ok (v, s') ∧ s'.Sep A.eps ∧
      |v - q| ≤ q * (1 / 2 ^ 51) ∧ (N ≤ 53 → v = A.rnd q) := by
  obtain ⟨s', hs', e⟩ := xorDifferenceAddE_eq hr h0 h1 f g hf s hs
  obtain ⟨a, ha, ea⟩ := xorDifferenceAdd_spec f g hl.le
  simp only [errorRateAdd, ha, bind, Except.bind] at h
  split at h
  · cases h
  · rename_i l hl'
    obtain ⟨hb, hq⟩ := fdiv_ok h
    set x := l.foldl (fun s p => if p.1 ≠ 0 then u64 (s + p.2) else s) 0 with hx
    set y := l.foldl (fun s p => u64 (s + p.2)) 0 with hy
    have hy64 : y < 2 ^ 64 := foldl_u64_lt (fun p : ℚ × Nat => p.2) l
    have hxe : x = (l.filter (fun p => decide (p.1 ≠ 0))).foldl (fun s p => u64 (s + p.2)) 0 :=
      foldl_if (fun p : ℚ × Nat => p.1 ≠ 0) (fun p => p.2) l 0
    have hx64 : x < 2 ^ 64 := by
      rw [hxe]; exact foldl_u64_lt (fun p : ℚ × Nat => p.2) _
    have hy0 : 0 < y := Nat.pos_of_ne_zero (fun h => hb (by rw [h]; simp))
    obtain ⟨n1, n2⟩ := quot_near hr x y hx64.le hy64.le hy0
    refine ⟨A.rnd (A.rnd x / A.rnd y), s', ?_, hs', ?_, fun h53 => ?_⟩
    · simp only [errorRateAddE, e, ha, Except.map, bind, Except.bind, hl']
      rw [← hx, ← hy, fdiv_of_ne n1]
    · rw [hq]; exact n2
    · obtain ⟨W, -, -, -, hW, hsum, -⟩ := terminalValues_mean a (xor_vars hfN hgN ea) (by omega) hl'
      have hW53 : W ≤ 2 ^ 53 := hW.trans (Nat.pow_le_pow_right (by norm_num) h53)
      have hyW : y = W := by
        rw [hy, foldl_u64 (fun p : ℚ × Nat => p.2) _ _ (by norm_num), zero_add,
          show (List.map (fun p : ℚ × Nat => p.2) l).sum = (l.map Prod.snd).sum from rfl, hsum, u64,
          Nat.mod_eq_of_lt (by omega)]
      have hxW : x ≤ W := by
        rw [hxe, foldl_u64 (fun p : ℚ × Nat => p.2) _ _ (by norm_num), zero_add]
        refine (Nat.mod_le _ _).trans ?_
        rw [← hsum]
        exact (List.filter_sublist.map _).sum_le_sum (fun _ _ => Nat.zero_le _)
      rw [quotAdd_exact hr x y (by omega) (by omega), hq]

theorem averageBitFlipErrorAddE_spec (f g : List (BDD m)) (hf : f.length ≤ 53) (s : CTab) (hs : s.Sep A.eps) {q : ℚ}
    (h : averageBitFlipErrorAdd f g = .ok q) : ∃ v s', averageBitFlipErrorAddE A f g s = .ok (v, s') ∧
      s'.Sep A.eps ∧ |v - q| ≤ q * (1 / 2 ^ 51) := by
  obtain ⟨s', hs', e⟩ := xorDifferenceAddE_eq hr h0 h1 f g hf s hs
  simp only [averageBitFlipErrorAdd, bind, Except.bind] at h
  split at h
  · cases h
  · rename_i a ha
    split at h
    · cases h
    · rename_i l hl
      split at h
      · cases h
      · rename_i p hp
        obtain ⟨hb, hq⟩ := fdiv_ok h
        have hlt : p.1 < 2 ^ 64 ∧ p.2 < 2 ^ 64 := by
          have key : ∀ (l : List (ℚ × Nat)) (a b : Nat) (p : Nat × Nat), a < 2 ^ 64 → b < 2 ^ 64 →
              avgFlipLoop l a b = .ok p → p.1 < 2 ^ 64 ∧ p.2 < 2 ^ 64 := by
            intro l
            induction l with
            | nil => intro a b p ha hb hp; cases hp; exact ⟨ha, hb⟩
            | cons c cs ih =>
              intro a b p ha hb hp
              simp only [avgFlipLoop, bind, Except.bind] at hp
              split at hp
              · cases hp
              · exact ih _ _ p (u64_lt _) (u64_lt _) hp
          exact key l 0 0 p (by norm_num) (by norm_num) hp
        have hp0 : 0 < p.2 := Nat.pos_of_ne_zero (fun h => hb (by rw [h]; simp))
        obtain ⟨n1, n2⟩ := quot_near hr p.1 p.2 hlt.1.le hlt.2.le hp0
        refine ⟨A.rnd (A.rnd p.1 / A.rnd p.2), s', ?_, hs', by rw [hq]; exact n2⟩
        simp only [averageBitFlipErrorAddE, e, ha, Except.map, bind, Except.bind, hl, hp]
        rw [fdiv_of_ne n1]

end

/-! ## Relative errors -/

theorem CTab.NoTiny.add {A : AddEnv} (h0 : 0 < A.eps) (v : ℚ) (hv : 0 ≤ v) (s : CTab) (hs : s.NoTiny A.eps) :
    (addConst A v s).2.NoTiny A.eps := (addConst_near h0 v hv s hs).2.2

/-- A value that is a whole number or far from one keeps the table separated. -/
theorem addConst_sep (_h0 : 0 < A.eps) (v : ℚ) (hv : ∀ z : ℤ, |v - z| < A.eps → v = z) (s : CTab)
    (h1 : A.eps ≤ 1) (hs : s.Sep A.eps) : (addConst A v s).2.Sep A.eps := by
  have := addConst_cases A v s
  simp only at this
  rcases this with ⟨-, -, c⟩ | ⟨-, b⟩
  · exact fun r hr => hs r (c ▸ hr)
  · intro r hr z hz
    rw [b, List.mem_cons] at hr
    rcases hr with rfl | hr
    · by_cases hlt : |v| < A.eps
      · rw [if_pos hlt] at hz ⊢
        have : |(0 : ℤ) - z| < 1 := by
          have := lt_of_lt_of_le hz h1
          exact_mod_cast this
        have := Int.abs_lt_one_iff.mp this
        have : z = 0 := by omega
        rw [this]; simp
      · rw [if_neg hlt] at hz ⊢
        exact hv z hz
    · exact hs r hr z hz

/-- Rounding a quotient of whole numbers. -/
theorem rnd_quot {rnd : ℚ → ℚ} (hr : Nearest rnd) (p q : Nat) (hp : p ≤ 2 ^ 53) (hq : q ≤ 2 ^ 53) (h0 : 0 < q) :
    |rnd ((p : ℚ) / q) - p / q| ≤ p / q * (1 / 2 ^ 53) := by
  rcases Nat.eq_zero_or_pos p with rfl | hp0
  · have := hr.nat53 0 (by norm_num)
    simp only [Nat.cast_zero, zero_div] at this ⊢
    rw [this]; simp
  · have p1 : (1 : ℚ) ≤ p := by exact_mod_cast hp0
    have q1 : (1 : ℚ) ≤ q := by exact_mod_cast h0
    have p2 : (p : ℚ) ≤ 2 ^ 53 := by exact_mod_cast hp
    have q2 : (q : ℚ) ≤ 2 ^ 53 := by exact_mod_cast hq
    refine hr.rel ?_ ?_
    · have : (1 : ℚ) / 2 ^ 53 ≤ p / q := by
        rw [div_le_div_iff₀ (by norm_num) (by linarith)]; nlinarith
      exact le_trans (one_div_le_one_div_of_le (by norm_num) (pow_le_pow_right₀ (by norm_num) (by norm_num))) this
    · have : (p : ℚ) / q ≤ 2 ^ 53 := by
        rw [div_le_iff₀ (by linarith)]; nlinarith
      exact this.trans (pow_le_pow_right₀ (by norm_num) (by norm_num))

/-- Quotients of numbers of at most 39 bits are whole or far from whole numbers, also after rounding. -/
theorem quot_sep {rnd : ℚ → ℚ} (hr : Nearest rnd) {eps : ℚ} (he : eps ≤ 3 / 2 ^ 41) (p q : Nat) (hp : p ≤ 2 ^ 39)
    (hq : q ≤ 2 ^ 39) (h0 : 0 < q) (z : ℤ) (hz : |rnd ((p : ℚ) / q) - z| < eps) : rnd ((p : ℚ) / q) = z := by
  have q0 : (0 : ℚ) < q := by exact_mod_cast h0
  have p2 : (p : ℚ) ≤ 2 ^ 39 := by exact_mod_cast hp
  have q2 : (q : ℚ) ≤ 2 ^ 39 := by exact_mod_cast hq
  have hn := rnd_quot hr p q (by omega) (by omega) h0
  by_cases hd : (p : ℤ) = z * q
  · have he : (p : ℚ) / q = z := by
      rw [div_eq_iff q0.ne']
      exact_mod_cast hd
    rw [he]
    apply hr.int
    have : (z : ℚ) ≤ 2 ^ 39 := by
      rw [← he, div_le_iff₀ q0]
      have q1 : (1 : ℚ) ≤ q := by exact_mod_cast h0
      nlinarith
    have hz0 : (0 : ℚ) ≤ z := by rw [← he]; positivity
    have h3 : z ≤ 2 ^ 39 := by exact_mod_cast this
    have h4 : 0 ≤ z := by exact_mod_cast hz0
    rw [abs_of_nonneg h4]
    omega
  · exfalso
    have h1 : (1 : ℚ) ≤ |(p : ℚ) - z * q| := by
      have : 1 ≤ |(p : ℤ) - z * q| := Int.one_le_abs (by omega)
      exact_mod_cast this
    have h2 : |(p : ℚ) / q - z| = |(p : ℚ) - z * q| / q := by
      rw [show (p : ℚ) / q - z = ((p : ℚ) - z * q) / q by field_simp, abs_div, abs_of_pos q0]
    have h3 : 1 / (q : ℚ) ≤ |(p : ℚ) / q - z| := by
      rw [h2]; exact div_le_div_of_nonneg_right h1 q0.le
    have h4 : |(p : ℚ) / q - z| ≤ |rnd ((p : ℚ) / q) - z| + |rnd ((p : ℚ) / q) - p / q| := by
      have := abs_sub_le ((p : ℚ) / q) (rnd ((p : ℚ) / q)) z
      rw [abs_sub_comm ((p : ℚ) / q) (rnd ((p : ℚ) / q))] at this
      linarith
    have h5 : (p : ℚ) / q * (1 / 2 ^ 53) ≤ 1 / q * (1 / 2 ^ 14) := by
      have e : (1 : ℚ) / q * (1 / 2 ^ 14) = 2 ^ 39 / q * (1 / 2 ^ 53) := by
        field_simp
      rw [e]
      exact mul_le_mul_of_nonneg_right (div_le_div_of_nonneg_right p2 q0.le) (by norm_num)
    have h6 : (1 : ℚ) / 2 ^ 39 ≤ 1 / q := one_div_le_one_div_of_le q0 q2
    have h7 : (1 : ℚ) / q - 1 / q * (1 / 2 ^ 14) < 3 / 2 ^ 41 := by linarith
    have h8 : (1 : ℚ) / 2 ^ 39 * (1 - 1 / 2 ^ 14) ≤ 1 / q * (1 - 1 / 2 ^ 14) :=
      mul_le_mul_of_nonneg_right h6 (by norm_num)
    norm_num at h7 h8
    linarith

/-- The ADD of relative errors. -/
theorem relativeDiffAddE_spec (hr : Nearest A.rnd) (h0 : 0 < A.eps) (h1 : A.eps ≤ 1) (r : NumRep)
    (f g : List (BDD m)) (hf : SignOk r f) (hg : SignOk r g) (hfl : f.length ≤ 53) (hgl : g.length ≤ 53) {N : Nat}
    (hfN : Fits N f) (hgN : Fits N g) (s : CTab) (hs : s.Sep A.eps) :
    ∃ a s', relativeDiffAddE A r f g s = .ok (a, s') ∧ s'.NoTiny A.eps ∧ (∀ v ∈ a.d.vars, v < N) ∧
      (∀ x, 0 ≤ a.eval x ∧ |a.eval x - relErrAt r f g x| ≤ A.eps + relErrAt r f g x * (1 / 2 ^ 53)) ∧
      (A.eps ≤ 3 / 2 ^ 41 → f.length ≤ 39 → g.length ≤ 39 → s'.Sep A.eps) := by
  obtain ⟨s1, hs1, e1⟩ := absoluteDifferenceAddE_eq hr h0 h1 r f g hfl hgl s hs
  obtain ⟨a, ha, ea⟩ := absoluteDifferenceAdd_spec r f g hf hg
  have hb : ∃ fa, bddAbs r f = .ok fa ∧ fa.length = f.length ∧ ∀ x, (uAt fa x : Int) = |valAt r f x| := by
    cases r with
    | baseTwo => exact ⟨f, rfl, rfl, fun x => by simp [valAt]⟩
    | twosComplement => exact bddAbs_spec f (hf rfl)
  obtain ⟨fa, hfa, hlfa, efa⟩ := hb
  obtain ⟨s2, hs2, e2⟩ := bddForestToAddE_eq hr h0 h1 .baseTwo fa (by omega) s1 hs1
  obtain ⟨d, hd, ed⟩ := bddForestToAdd_spec .baseTwo fa (by simp)
  have ev : ∀ x, ∃ p q : Nat, a.eval x = p ∧ (d.maximum (.const 1)).eval x = q ∧ 0 < q ∧
      relErrAt r f g x = (p : ℚ) / q ∧ p ≤ 2 ^ max f.length g.length ∧ q ≤ 2 ^ f.length := by
    intro x
    refine ⟨(valAt r f x - valAt r g x).natAbs, max (uAt fa x) 1, ?_, ?_, by omega, ?_, ?_, ?_⟩
    · rw [ea, abs_nonneg_cast]
    · rw [ADD.eval_maximum, ADD.eval_const, ed]
      simp [valAt]
    · rw [relErrAt, abs_nonneg_cast]
      congr 1
      have := efa x
      have h3 : ((|valAt r f x| : Int) : ℚ) = (uAt fa x : ℚ) := by rw [← this]; simp
      push_cast at h3 ⊢
      rw [h3, max_comm]
    · have h1 := repVal_diff_lt r (bitsAt f x) (bitsAt g x)
      rw [← valAt_eq, ← valAt_eq, Int.abs_eq_natAbs] at h1
      simp only [bitsAt_length] at h1
      have : (valAt r f x - valAt r g x).natAbs < 2 ^ max f.length g.length := by exact_mod_cast h1
      exact this.le
    · have := uAt_lt fa x
      rw [hlfa] at this
      have := Nat.one_le_two_pow (n := f.length)
      omega
  have hpow : ∀ k n : Nat, k ≤ n → 2 ^ k ≤ 2 ^ n := fun k n h => Nat.pow_le_pow_right (by norm_num) h
  obtain ⟨p3, e3⟩ := AD.applyE_spec (A := A) (op := fun p q => A.rnd (p / q)) (CTab.NoTiny A.eps)
    (fun p q v => 0 ≤ v ∧ |v - p / q| ≤ A.eps + p / q * (1 / 2 ^ 53))
    (a.d.size + (d.maximum (.const 1)).d.size) a.d (d.maximum (.const 1)).d s2 a.wf (d.maximum (.const 1)).wf le_rfl
    hs2.noTiny (fun x s hs => by
      obtain ⟨p, q, hp, hq, hq0, -, hp2, hq2⟩ := ev x
      simp only [ADD.eval] at hp hq
      rw [hp, hq]
      have hn := rnd_quot hr p q (hp2.trans (hpow _ _ (by omega))) (hq2.trans (hpow _ _ (by omega))) hq0
      have hpq : (0 : ℚ) ≤ p / q := by positivity
      have hnn : 0 ≤ A.rnd ((p : ℚ) / q) := by
        have h5 := (abs_le.mp hn).1
        have h6 : (p : ℚ) / q * (1 / 2 ^ 53) ≤ p / q := mul_le_of_le_one_right hpq (by norm_num)
        linarith
      obtain ⟨c1, c2, c3⟩ := addConst_near h0 (A.rnd ((p : ℚ) / q)) hnn s hs
      refine ⟨⟨c2, ?_⟩, c3⟩
      have := abs_sub_le (addConst A (A.rnd ((p : ℚ) / q)) s).1 (A.rnd ((p : ℚ) / q)) (p / q)
      linarith)
  refine ⟨_, _, by simp only [relativeDiffAddE, e1, ha, hfa, e2, hd, bind, Except.bind, Except.map]; rfl, p3, ?_, ?_, ?_⟩
  · intro v hv
    rcases AD.applyE_vars _ _ _ _ v hv with h | h
    · exact absDiff_vars hfN hgN ea v h
    · refine vars_lt_of_bits (a := d.maximum (.const 1)) hfN hgN
        (fun b _ => max ((|repVal r b| : Int) : ℚ) 1) (fun x => ?_) v h
      rw [ADD.eval_maximum, ADD.eval_const, ed, ← valAt_eq]
      have : valAt .baseTwo fa x = |valAt r f x| := efa x
      rw [this]
  · intro x
    obtain ⟨p, q, hp, hq, -, hrel, -, -⟩ := ev x
    have := e3 x
    simp only [ADD.eval] at hp hq
    rw [hp, hq, ← hrel] at this
    exact this
  · intro he hf39 hg39
    exact (AD.applyE_spec (A := A) (op := fun p q => A.rnd (p / q)) (CTab.Sep A.eps)
      (fun _ _ _ => True) (a.d.size + (d.maximum (.const 1)).d.size) a.d (d.maximum (.const 1)).d s2 a.wf
      (d.maximum (.const 1)).wf le_rfl hs2 (fun x s hs => by
        obtain ⟨p, q, hp, hq, hq0, -, hp2, hq2⟩ := ev x
        simp only [ADD.eval] at hp hq
        rw [hp, hq]
        exact ⟨trivial, addConst_sep h0 _ (fun z hz => quot_sep hr he p q (hp2.trans (hpow _ _ (by omega)))
          (hq2.trans (hpow _ _ (by omega))) hq0 z hz) s h1 hs⟩)).1


section
variable (hr : Nearest A.rnd) (h0 : 0 < A.eps) (h1 : A.eps ≤ 1)
include hr h0 h1

theorem wcreAddE_spec (hm : m.Mono) (r : NumRep) (f g : List (BDD m)) (hf : SignOk r f) (hg : SignOk r g)
    (hfl : f.length ≤ 53) (hgl : g.length ≤ 53) {N : Nat} (hfN : Fits N f) (hgN : Fits N g) (hN : N ≤ 64)
    (s : CTab) (hs : s.Sep A.eps) {M : ℚ} (hM : IsMax (relErrAt r f g) M) :
    ∃ v s', wcreAddE A r f g s = .ok (v, s') ∧ 0 ≤ v ∧ |v - M| ≤ A.eps + M * (1 / 2 ^ 53) ∧
      (A.eps ≤ 3 / 2 ^ 41 → f.length ≤ 39 → g.length ≤ 39 → s'.Sep A.eps) := by
  obtain ⟨a, s', e, -, hv, ha, hsep⟩ := relativeDiffAddE_spec hr h0 h1 r f g hf hg hfl hgl hfN hgN s hs
  obtain ⟨l, hl⟩ := addTerminalValues_ok hm a hv hN
  have hmax := isMax_of_values (addTerminalValues_values a hl).2 (fun q => q) 0 (fun x => (ha x).1)
  refine ⟨l.foldl (fun l p => max l p.1) 0, s', by simp only [wcreAddE, e, hl, bind, Except.bind], ?_, ?_, hsep⟩
  · obtain ⟨⟨x, hx⟩, -⟩ := hmax
    rw [foldl_max_comm]
    rw [← hx]; exact (ha x).1
  · rw [foldl_max_comm]
    obtain ⟨⟨x, hx⟩, hup⟩ := hmax
    obtain ⟨⟨y, hy⟩, hupM⟩ := hM
    rw [abs_le]
    constructor
    · have h2 := (abs_le.mp (ha y).2).1
      have h3 := hup y
      simp only at h3
      rw [hy] at h2
      linarith
    · have h2 := (abs_le.mp (ha x).2).2
      have h3 := hupM x
      simp only at hx
      rw [← hx]
      have h4 : relErrAt r f g x * (1 / 2 ^ 53) ≤ M * (1 / 2 ^ 53) := mul_le_mul_of_nonneg_right h3 (by norm_num)
      linarith

end

theorem dec_le {dec : ℚ → ℚ} (hd : Dec100 dec) {q : ℚ} (h : 0 ≤ q) :
    q * (1 - 1 / 10 ^ 99) ≤ dec q ∧ dec q ≤ q * (1 + 1 / 10 ^ 99) := by
  have := abs_le.mp (hd.near q)
  rw [abs_of_nonneg h] at this
  constructor <;> linarith [this.1, this.2]

theorem dec_nonneg {dec : ℚ → ℚ} (hd : Dec100 dec) {q : ℚ} (h : 0 ≤ q) : 0 ≤ dec q :=
  le_trans (mul_nonneg h (by norm_num)) (dec_le hd h).1

theorem decFold_spec {dec : ℚ → ℚ} (hd : Dec100 dec) : ∀ (l : List (ℚ × Nat)) (s : ℚ), 0 ≤ s → (∀ p ∈ l, 0 ≤ p.1) →
    s * (1 - 1 / 10 ^ 99) ^ l.length + (l.map (fun p => p.1 * (p.2 : ℚ))).sum * (1 - 1 / 10 ^ 99) ^ (l.length + 2) ≤
      l.foldl (fun s p => dec (s + dec (dec p.1 * p.2))) s ∧
    l.foldl (fun s p => dec (s + dec (dec p.1 * p.2))) s ≤
      s * (1 + 1 / 10 ^ 99) ^ l.length + (l.map (fun p => p.1 * (p.2 : ℚ))).sum * (1 + 1 / 10 ^ 99) ^ (l.length + 2) := by
  intro l
  generalize hu : (1 : ℚ) / 10 ^ 99 = u
  have u0 : 0 ≤ u := by rw [← hu]; positivity
  have u1 : 0 ≤ 1 - u := by rw [← hu]; norm_num
  have hd' : ∀ q, 0 ≤ q → q * (1 - u) ≤ dec q ∧ dec q ≤ q * (1 + u) := fun q h => by
    rw [← hu]; exact dec_le hd h
  induction l with
  | nil => intro s _ _; simp
  | cons p ps ih =>
    intro s hs hp
    rw [List.foldl_cons, List.map_cons, List.sum_cons, List.length_cons]
    have hp1 := hp p List.mem_cons_self
    have hc : (0 : ℚ) ≤ p.2 := by positivity
    obtain ⟨a1, a2⟩ := hd' p.1 hp1
    have a0 : 0 ≤ dec p.1 := le_trans (mul_nonneg hp1 u1) a1
    obtain ⟨b1, b2⟩ := hd' (dec p.1 * p.2) (mul_nonneg a0 hc)
    have b0 : 0 ≤ dec (dec p.1 * p.2) := le_trans (mul_nonneg (mul_nonneg a0 hc) u1) b1
    obtain ⟨c1, c2⟩ := hd' (s + dec (dec p.1 * p.2)) (add_nonneg hs b0)
    have c0 : 0 ≤ dec (s + dec (dec p.1 * p.2)) := le_trans (mul_nonneg (add_nonneg hs b0) u1) c1
    obtain ⟨i1, i2⟩ := ih _ c0 (fun q hq => hp q (List.mem_cons_of_mem _ hq))
    have lo : s * (1 - u) + p.1 * p.2 * (1 - u) ^ 3 ≤ dec (s + dec (dec p.1 * p.2)) := by
      have t1 : p.1 * (1 - u) * p.2 * (1 - u) ≤ dec p.1 * p.2 * (1 - u) :=
        mul_le_mul_of_nonneg_right (mul_le_mul_of_nonneg_right a1 hc) u1
      have t2 : (s + p.1 * (1 - u) * p.2 * (1 - u)) * (1 - u) ≤ (s + dec (dec p.1 * p.2)) * (1 - u) :=
        mul_le_mul_of_nonneg_right (by linarith) u1
      calc _ = (s + p.1 * (1 - u) * p.2 * (1 - u)) * (1 - u) := by ring
        _ ≤ _ := t2.trans c1
    have hi : dec (s + dec (dec p.1 * p.2)) ≤ s * (1 + u) + p.1 * p.2 * (1 + u) ^ 3 := by
      have v1 : 0 ≤ 1 + u := by linarith
      have t1 : dec p.1 * p.2 * (1 + u) ≤ p.1 * (1 + u) * p.2 * (1 + u) :=
        mul_le_mul_of_nonneg_right (mul_le_mul_of_nonneg_right a2 hc) v1
      have t2 : (s + dec (dec p.1 * p.2)) * (1 + u) ≤ (s + p.1 * (1 + u) * p.2 * (1 + u)) * (1 + u) :=
        mul_le_mul_of_nonneg_right (by linarith) v1
      calc _ ≤ _ := c2.trans t2
        _ = _ := by ring
    constructor
    · refine le_trans ?_ i1
      have := mul_le_mul_of_nonneg_right lo (pow_nonneg u1 ps.length)
      calc _ = (s * (1 - u) + p.1 * p.2 * (1 - u) ^ 3) * (1 - u) ^ ps.length +
            (ps.map (fun p => p.1 * (p.2 : ℚ))).sum * (1 - u) ^ (ps.length + 2) * (1 - u) := by ring
        _ ≤ _ := by
          have hS : 0 ≤ (ps.map (fun p => p.1 * (p.2 : ℚ))).sum * (1 - u) ^ (ps.length + 2) := by
            apply mul_nonneg _ (pow_nonneg u1 _)
            apply List.sum_nonneg
            intro x hx
            obtain ⟨q, hq, rfl⟩ := List.mem_map.mp hx
            exact mul_nonneg (hp q (List.mem_cons_of_mem _ hq)) (by positivity)
          have : (ps.map (fun p => p.1 * (p.2 : ℚ))).sum * (1 - u) ^ (ps.length + 2) * (1 - u) ≤
              (ps.map (fun p => p.1 * (p.2 : ℚ))).sum * (1 - u) ^ (ps.length + 2) :=
            mul_le_of_le_one_right hS (by linarith)
          linarith
    · refine le_trans i2 ?_
      have := mul_le_mul_of_nonneg_right hi (pow_nonneg (by linarith : 0 ≤ 1 + u) ps.length)
      have hS : 0 ≤ (ps.map (fun p => p.1 * (p.2 : ℚ))).sum * (1 + u) ^ (ps.length + 2) := by
        apply mul_nonneg _ (pow_nonneg (by linarith) _)
        apply List.sum_nonneg
        intro x hx
        obtain ⟨q, hq, rfl⟩ := List.mem_map.mp hx
        exact mul_nonneg (hp q (List.mem_cons_of_mem _ hq)) (by positivity)
      have h5 : (ps.map (fun p => p.1 * (p.2 : ℚ))).sum * (1 + u) ^ (ps.length + 2) ≤
          (ps.map (fun p => p.1 * (p.2 : ℚ))).sum * (1 + u) ^ (ps.length + 2) * (1 + u) :=
        le_mul_of_one_le_right hS (by linarith)
      calc _ ≤ (s * (1 + u) + p.1 * p.2 * (1 + u) ^ 3) * (1 + u) ^ ps.length +
            (ps.map (fun p => p.1 * (p.2 : ℚ))).sum * (1 + u) ^ (ps.length + 2) * (1 + u) := by linarith
        _ = _ := by ring

theorem pow_bounds {u : ℚ} (h0 : 0 ≤ u) {n : Nat} (h : n * u ≤ 1 / 2) :
    1 - n * u ≤ (1 - u) ^ n ∧ (1 + u) ^ n ≤ 1 + 2 * (n * u) := by
  rcases Nat.eq_zero_or_pos n with rfl | hn
  · simp
  have n1 : (1 : ℚ) ≤ n := by exact_mod_cast hn
  have hu : u ≤ 1 / 2 := by nlinarith
  have hb : 1 - n * u ≤ (1 - u) ^ n := by
    have := one_add_mul_le_pow (a := -u) (by linarith) n
    calc 1 - n * u = 1 + n * -u := by ring
      _ ≤ (1 + -u) ^ n := this
      _ = _ := by ring_nf
  refine ⟨hb, ?_⟩
  have h2 : (1 + u) ^ n * (1 - u) ^ n ≤ 1 := by
    rw [← mul_pow]
    exact pow_le_one₀ (by nlinarith) (by nlinarith)
  have h3 : 0 ≤ (1 + u) ^ n := pow_nonneg (by linarith) _
  have h4 : (1 + u) ^ n * (1 - n * u) ≤ 1 := (mul_le_mul_of_nonneg_left hb h3).trans h2
  have nu0 : 0 ≤ n * u := mul_nonneg (by linarith) h0
  by_contra hc
  rw [not_le] at hc
  have : (1 + 2 * (n * u)) * (1 - n * u) < (1 + u) ^ n * (1 - n * u) :=
    mul_lt_mul_of_pos_right hc (by linarith)
  nlinarith

/-- There are at most as many terminals as inputs. -/
theorem terminals_le (a : ADD m) {N : Nat} (hv : ∀ v ∈ a.d.vars, v < N) {l : List (ℚ × Nat)}
    (hl : addTerminalValues a = .ok l) : l.length ≤ 2 ^ N := by
  obtain ⟨hnd, hval⟩ := addTerminalValues_values a hl
  have hsub : (l.map Prod.fst).toFinset ⊆ Finset.univ.image (fun b : Fin N → Bool => a.eval (ext b)) := by
    intro q hq
    rw [List.mem_toFinset, hval] at hq
    obtain ⟨x, rfl⟩ := hq
    rw [Finset.mem_image]
    refine ⟨fun i => x i, Finset.mem_univ _, ?_⟩
    apply AD.eval_congr
    intro v hv'
    simp [ext, hv v hv']
  have h1 := Finset.card_le_card hsub
  rw [List.toFinset_card_of_nodup hnd, List.length_map] at h1
  refine h1.trans (Finset.card_image_le.trans ?_)
  simp

theorem acreAddE_spec {dec : ℚ → ℚ} (hd : Dec100 dec) (hr : Nearest A.rnd) (h0 : 0 < A.eps) (h1 : A.eps ≤ 1)
    (hm : m.Mono) (r : NumRep) (f g : List (BDD m)) (hf : SignOk r f) (hg : SignOk r g)
    (hfl : f.length ≤ 53) (hgl : g.length ≤ 53) {N : Nat} (hfN : Fits N f) (hgN : Fits N g) (hN : N ≤ 64)
    (s : CTab) (hs : s.Sep A.eps) :
    ∃ v s', acreAddE A dec r f g s = .ok (v, s') ∧ 0 ≤ v ∧
      |v - mean N (relErrAt r f g)| ≤ 2 * A.eps + mean N (relErrAt r f g) * (1 / 2 ^ 52) ∧
      (A.eps ≤ 3 / 2 ^ 41 → f.length ≤ 39 → g.length ≤ 39 → s'.Sep A.eps) := by
  obtain ⟨a, s', e, -, hv, ha, hsep⟩ := relativeDiffAddE_spec hr h0 h1 r f g hf hg hfl hgl hfN hgN s hs
  obtain ⟨l, hl⟩ := addTerminalValues_ok hm a hv hN
  obtain ⟨W, -, hval, hW0, hW, hsum, hmean⟩ := terminalValues_mean a hv hN hl
  have hlen := terminals_le a hv hl
  have hlen64 : l.length ≤ 2 ^ 64 := hlen.trans (Nat.pow_le_pow_right (by norm_num) hN)
  have hW0' : (0 : ℚ) < W := by exact_mod_cast hW0
  have hlt : W < 2 ^ 256 := lt_of_le_of_lt hW (Nat.pow_lt_pow_right (by norm_num) (by omega))
  have hnn : ∀ p ∈ l, 0 ≤ p.1 := fun p hp => by
    obtain ⟨x, hx⟩ := (hval p.1).mp (List.mem_map_of_mem hp)
    rw [← hx]; exact (ha x).1
  have hS := hmean (fun q => q)
  obtain ⟨d1, d2⟩ := decFold_spec hd l 0 le_rfl hnn
  rw [zero_mul, zero_add, hS] at d1 d2
  set S := l.foldl (fun s p => dec (s + dec (dec p.1 * p.2))) 0 with hSdef
  set μ := mean N (fun x => a.eval x) with hμ
  have μ0 : 0 ≤ μ := mean_nonneg N (fun x => (ha x).1)
  have hden : u256 (l.map Prod.snd).sum = W := by rw [hsum, u256, Nat.mod_eq_of_lt hlt]
  have hres : acreAddE A dec r f g s = .ok (dec (S / W), s') := by
    simp only [acreAddE, e, hl, bind, Except.bind]
    rw [foldl_u256 (fun p : ℚ × Nat => p.2) _ _ (by norm_num), zero_add,
      show (List.map (fun p : ℚ × Nat => p.2) l).sum = (l.map Prod.snd).sum from rfl, hden, fdiv_of_ne hW0'.ne']
  generalize hu : (1 : ℚ) / 10 ^ 99 = u at d1 d2
  have u0 : 0 ≤ u := by rw [← hu]; positivity
  have u1 : 0 ≤ 1 - u := by rw [← hu]; norm_num
  have x1 : μ * (1 - u) ^ (l.length + 2) ≤ S / W := by
    rw [le_div_iff₀ hW0']; linarith
  have x2 : S / W ≤ μ * (1 + u) ^ (l.length + 2) := by
    rw [div_le_iff₀ hW0']; linarith
  have x0 : 0 ≤ S / W := le_trans (mul_nonneg μ0 (pow_nonneg u1 _)) x1
  have y := dec_le hd x0
  rw [hu] at y
  have hn : ((l.length + 3 : Nat) : ℚ) * u ≤ 1 / 10 ^ 79 / 2 := by
    have : ((l.length + 3 : Nat) : ℚ) ≤ 2 ^ 64 + 3 := by exact_mod_cast Nat.add_le_add_right hlen64 3
    calc ((l.length + 3 : Nat) : ℚ) * u ≤ (2 ^ 64 + 3) * u := mul_le_mul_of_nonneg_right this u0
      _ ≤ _ := by rw [← hu]; norm_num
  obtain ⟨b1, b2⟩ := pow_bounds u0 (n := l.length + 3) (hn.trans (by norm_num))
  have z1 : μ * (1 - 1 / 10 ^ 79) ≤ dec (S / W) := by
    refine le_trans ?_ y.1
    calc μ * (1 - 1 / 10 ^ 79) ≤ μ * (1 - u) ^ (l.length + 3) := mul_le_mul_of_nonneg_left (by linarith) μ0
      _ = μ * (1 - u) ^ (l.length + 2) * (1 - u) := by ring
      _ ≤ _ := mul_le_mul_of_nonneg_right x1 u1
  have z2 : dec (S / W) ≤ μ * (1 + 1 / 10 ^ 79) := by
    refine le_trans y.2 ?_
    calc S / W * (1 + u) ≤ μ * (1 + u) ^ (l.length + 2) * (1 + u) := mul_le_mul_of_nonneg_right x2 (by linarith)
      _ = μ * (1 + u) ^ (l.length + 3) := by ring
      _ ≤ _ := mul_le_mul_of_nonneg_left (by linarith) μ0
  set ν := mean N (relErrAt r f g) with hν
  have ν0 : 0 ≤ ν := mean_nonneg N (fun x => by rw [← relErr_eq]; exact relErr_nonneg _ _ _)
  have m1 : μ ≤ ν * (1 + 1 / 2 ^ 53) + A.eps := by
    have := mean_mono N (g := fun x => a.eval x) (h := fun x => (1 + 1 / 2 ^ 53) * relErrAt r f g x + A.eps)
      (fun x => by have := (abs_le.mp (ha x).2).2; linarith)
    rw [mean_add, mean_mul_left, mean_const] at this
    linarith
  have m2 : ν * (1 - 1 / 2 ^ 53) - A.eps ≤ μ := by
    have := mean_mono N (g := fun x => (1 - 1 / 2 ^ 53) * relErrAt r f g x + -A.eps) (h := fun x => a.eval x)
      (fun x => by have := (abs_le.mp (ha x).2).1; linarith)
    rw [mean_add, mean_mul_left, mean_const] at this
    linarith
  refine ⟨_, s', hres, le_trans (mul_nonneg μ0 (by norm_num)) z1, ?_, hsep⟩
  have k1 : μ * (1 / 10 ^ 79) ≤ ν * (1 / 2 ^ 53) + A.eps := by
    calc μ * (1 / 10 ^ 79) ≤ (ν * (1 + 1 / 2 ^ 53) + A.eps) * (1 / 10 ^ 79) :=
          mul_le_mul_of_nonneg_right m1 (by norm_num)
      _ = ν * ((1 + 1 / 2 ^ 53) * (1 / 10 ^ 79)) + A.eps * (1 / 10 ^ 79) := by ring
      _ ≤ _ := add_le_add (mul_le_mul_of_nonneg_left (by norm_num) ν0) (mul_le_of_le_one_right h0.le (by norm_num))
  have k2 : ν * (1 / 2 ^ 52) = ν * (1 / 2 ^ 53) + ν * (1 / 2 ^ 53) := by ring
  rw [abs_le, k2]
  constructor <;> linarith


/-! ## Runs -/

theorem relativeDiffAddE_sep (hr : Nearest A.rnd) (h0 : 0 < A.eps) (h1 : A.eps ≤ 1) (h3 : A.eps ≤ 3 / 2 ^ 41)
    (r : NumRep) (f g : List (BDD m)) (hf : f.length ≤ 39) (hg : g.length ≤ 39) (s : CTab) (hs : s.Sep A.eps)
    {p : ADD m × CTab} (h : relativeDiffAddE A r f g s = .ok p) : p.2.Sep A.eps := by
  have hok : SignOk r f ∧ SignOk r g := by
    obtain ⟨s', -, e⟩ := absoluteDifferenceAddE_eq hr h0 h1 r f g (by omega) (by omega) s hs
    simp only [relativeDiffAddE, e, absoluteDifferenceAdd, bind, Except.bind] at h
    constructor
    · rintro rfl rfl
      simp [bddForestToAdd, withSignBit, Except.map] at h
    · rintro rfl rfl
      cases hb : bddForestToAdd .twosComplement f with
      | error => rw [hb] at h; simp [Except.map] at h
      | ok a => rw [hb] at h; simp [bddForestToAdd, withSignBit, Except.map] at h
  obtain ⟨N1, h4⟩ := exists_fits f
  obtain ⟨N2, h5⟩ := exists_fits g
  obtain ⟨a, s', e, -, -, -, hsep⟩ := relativeDiffAddE_spec (N := max N1 N2) hr h0 h1 r f g hok.1 hok.2 (by omega)
    (by omega) (fun b hb v hv => lt_of_lt_of_le (h4 b hb v hv) (le_max_left _ _))
    (fun b hb v hv => lt_of_lt_of_le (h5 b hb v hv) (le_max_right _ _)) s hs
  rw [e] at h
  cases h
  exact hsep h3 hf hg

theorem map_snd_ok {α : Type _} {x : Except Fault (α × CTab)} {t : CTab} (h : x.map Prod.snd = .ok t) :
    ∃ a, x = .ok (a, t) := by
  cases x with
  | error e => cases h
  | ok p => exact ⟨p.1, by cases h; rfl⟩

theorem map_pair_ok {α β : Type _} {x : Except Fault α} {F : α → β} {s' t : CTab} {y : Except Fault (β × CTab)}
    (e : y = x.map (fun v => (F v, s'))) (h : y.map Prod.snd = .ok t) : t = s' := by
  rw [e] at h
  cases x with
  | error e => cases h
  | ok p => cases h; rfl

theorem AddCall.run_sep {dec : ℚ → ℚ} (hr : Nearest A.rnd) (h0 : 0 < A.eps) (h1 : A.eps ≤ 1) (h3 : A.eps ≤ 3 / 2 ^ 41)
    (c : AddCall m) (hb : c.Bits 39) (s t : CTab) (hs : s.Sep A.eps) (h : c.run A dec s = .ok t) : t.Sep A.eps := by
  cases c with
  | worstCase r f g =>
    obtain ⟨s', hs', e⟩ := worstCaseErrorAddE_eq hr h0 h1 r f g (hb.1.trans (by norm_num)) (hb.2.trans (by norm_num)) s hs
    rw [map_pair_ok e h]; exact hs'
  | average r f g =>
    obtain ⟨s', hs', e⟩ := averageCaseErrorAddE_eq hr h0 h1 dec r f g (hb.1.trans (by norm_num)) (hb.2.trans (by norm_num)) s hs
    rw [map_pair_ok e h]; exact hs'
  | meanSquared r f g =>
    obtain ⟨s', hs', e⟩ := meanSquaredErrorAddE_eq hr h0 h1 dec r f g (hb.1.trans (by norm_num)) (hb.2.trans (by norm_num)) s hs
    rw [map_pair_ok e h]; exact hs'
  | bitFlip f g =>
    obtain ⟨s', hs', e⟩ := worstCaseBitFlipErrorE_eq hr h0 h1 f g (lt_of_le_of_lt hb.1 (by norm_num)) s hs
    rw [map_pair_ok e h]; exact hs'
  | bitFlipAdd f g =>
    obtain ⟨s', hs', e⟩ := worstCaseBitFlipErrorAddE_eq hr h0 h1 f g (hb.1.trans (by norm_num)) s hs
    rw [map_pair_ok e h]; exact hs'
  | errorRate f g =>
    obtain ⟨s', hs', e⟩ := xorDifferenceAddE_eq hr h0 h1 f g (hb.1.trans (by norm_num)) s hs
    obtain ⟨q, hq⟩ := map_snd_ok h
    simp only [errorRateAddE, e, bind, Except.bind] at hq
    split at hq
    · cases hq
    · rename_i p hp
      split at hq
      · cases hq
      · split at hq
        · cases hq
        · cases hq
          cases hx : xorDifferenceAdd f g with
          | error => rw [hx] at hp; cases hp
          | ok a => rw [hx] at hp; cases hp; exact hs'
  | averageBitFlip f g =>
    obtain ⟨s', hs', e⟩ := xorDifferenceAddE_eq hr h0 h1 f g (hb.1.trans (by norm_num)) s hs
    obtain ⟨q, hq⟩ := map_snd_ok h
    simp only [averageBitFlipErrorAddE, e, bind, Except.bind] at hq
    split at hq
    · cases hq
    · rename_i p hp
      split at hq
      · cases hq
      · split at hq
        · cases hq
        · split at hq
          · cases hq
          · cases hq
            cases hx : xorDifferenceAdd f g with
            | error => rw [hx] at hp; cases hp
            | ok a => rw [hx] at hp; cases hp; exact hs'
  | wcre r f g =>
    obtain ⟨q, hq⟩ := map_snd_ok h
    simp only [wcreAddE, bind, Except.bind] at hq
    split at hq
    · cases hq
    · rename_i p hp
      split at hq
      · cases hq
      · cases hq
        exact relativeDiffAddE_sep hr h0 h1 h3 r f g hb.1 hb.2 s hs hp
  | acre r f g =>
    obtain ⟨q, hq⟩ := map_snd_ok h
    simp only [acreAddE, bind, Except.bind] at hq
    split at hq
    · cases hq
    · rename_i p hp
      split at hq
      · cases hq
      · split at hq
        · cases hq
        · cases hq
          exact relativeDiffAddE_sep hr h0 h1 h3 r f g hb.1 hb.2 s hs hp

/-! ## 54 bits -/

theorem isDouble_even {q : ℚ} (h : IsDouble q) (hq : 2 ^ 53 < q) : ∃ z : ℤ, q = 2 * z := by
  obtain ⟨k, e, hk, -, -, rfl⟩ := h
  have he : 1 ≤ e := by
    by_contra hc
    have h1 : (2 : ℚ) ^ e ≤ 1 := zpow_le_one_of_nonpos₀ (by norm_num) (by omega)
    have h2 : (k : ℚ) ≤ 2 ^ 53 := by exact_mod_cast (le_abs_self k).trans hk
    have h3 : (0 : ℚ) < 2 ^ e := zpow_pos (by norm_num) _
    nlinarith
  obtain ⟨n, rfl⟩ : ∃ n : Nat, e = n + 1 := ⟨(e - 1).toNat, by omega⟩
  refine ⟨k * 2 ^ n, ?_⟩
  rw [zpow_add₀ (by norm_num), zpow_natCast, zpow_one]
  push_cast
  ring

theorem forestLoopE_append (two : ADD m) : ∀ (l l' : List (BDD m)) (res pow : ADD m) (s : CTab),
    forestLoopE A two (l ++ l') res pow s =
      forestLoopE A two l' (forestLoopE A two l res pow s).1.1 (forestLoopE A two l res pow s).1.2
        (forestLoopE A two l res pow s).2
  | [], _, _, _, _ => rfl
  | _ :: l, l', _, _, _ => forestLoopE_append two l l' _ _ _

theorem ADD.applyE_const (op : ℚ → ℚ → ℚ) (p q : ℚ) (s : CTab) :
    ADD.applyE A op (.const p : ADD m) (.const q) s =
      (.const (addConst A (op p q) s).1, (addConst A (op p q) s).2) := rfl


/-- The constant 2^53 + 1 is converted to an even number. -/
theorem forest_54 (hr : Nearest A.rnd) (h0 : 0 < A.eps) (h1 : A.eps ≤ 1) (s : CTab) (hs : s.Sep A.eps) :
    ∃ (z : ℤ) (s' : CTab), s'.Sep A.eps ∧ 0 ≤ z ∧ z ≤ 2 ^ 54 ∧ z % 2 = 0 ∧ A.rnd z = z ∧
      bddForestToAddE A .baseTwo ((BDD.one : BDD m) :: List.replicate 52 .zero ++ [.one]) s = .ok (.const z, s') := by
  have hbig : |(2 ^ 53 + 1 : ℚ)| ≤ 2 ^ 1023 := by
    rw [abs_of_nonneg (by norm_num)]
    exact le_trans (by norm_num : (2 ^ 53 + 1 : ℚ) ≤ 2 ^ 54) (pow_le_pow_right₀ (by norm_num) (by norm_num))
  have hd := hr.isDouble _ hbig
  have hn := hr.near (2 ^ 53 + 1) (2 ^ 53) hbig (isDouble_two_pow (by norm_num))
  rw [show |(2 ^ 53 : ℚ) - (2 ^ 53 + 1)| = 1 by norm_num, abs_le] at hn
  obtain ⟨z, hz, hz2⟩ : ∃ z : ℤ, A.rnd (2 ^ 53 + 1) = z ∧ z % 2 = 0 := by
    rcases lt_or_ge (2 ^ 53) (A.rnd (2 ^ 53 + 1)) with h | h
    · obtain ⟨z, hz⟩ := isDouble_even hd h
      exact ⟨2 * z, by rw [hz]; push_cast; ring, by omega⟩
    · exact ⟨2 ^ 53, by push_cast; linarith [hn.1], by norm_num⟩
  rw [hz] at hd hn
  have hzlo : (2 : ℤ) ^ 53 ≤ z := by
    have : (2 : ℚ) ^ 53 ≤ z := by linarith [hn.1]
    exact_mod_cast this
  have hzhi : z ≤ 2 ^ 54 := by
    have : (z : ℚ) ≤ 2 ^ 53 + 2 := by linarith [hn.2]
    have : z ≤ 2 ^ 53 + 2 := by exact_mod_cast this
    omega
  have hrz : A.rnd z = z := by
    refine hr.exact hd ?_
    rw [abs_of_nonneg (by exact_mod_cast (by omega : (0 : ℤ) ≤ z))]
    have : (z : ℚ) ≤ 2 ^ 54 := by exact_mod_cast hzhi
    exact this.trans (pow_le_pow_right₀ (by norm_num) (by norm_num))
  -- the addition of ones
  have i2 := addConst_int (A := A) h0 h1 2 s hs
  have r2 : A.rnd (1 + 1) = ((2 : ℤ) : ℚ) := by
    rw [show (1 + 1 : ℚ) = ((2 : ℤ) : ℚ) by norm_num]
    exact hr.int 2 (by norm_num)
  -- 53 bits
  obtain ⟨e1, s1⟩ := forestLoopE_eq (m := m) hr h0 h1 (BDD.one :: List.replicate 52 .zero) 0 (.const 0) (.const 1) _ i2.2
    (by simp) (fun x => ⟨0, by simp, by simp⟩) (fun x => by simp)
  have v1 : (forestLoop ((BDD.one : BDD m) :: List.replicate 52 .zero) (.const 0) (.const 1)).1 = .const (2 ^ 52) :=
    ADD.ext_eval fun x => by
      rw [(forestLoop_spec _ _ _ x).1, ADD.eval_const, ADD.eval_const, zero_mul, zero_add]
      have : uAt (((BDD.one : BDD m) :: List.replicate 52 .zero).reverse) x = 2 ^ 52 := by
        rw [List.reverse_cons, List.reverse_replicate, uAt_append, uAt_replicate_zero, List.length_replicate, zero_add]
        rfl
      rw [this]; norm_num
  have v2 : (forestLoop ((BDD.one : BDD m) :: List.replicate 52 .zero) (.const 0) (.const 1)).2 = .const (2 ^ 53) :=
    ADD.ext_eval fun x => by
      rw [(forestLoop_spec _ _ _ x).2, ADD.eval_const, ADD.eval_const]
      simp
  generalize hF : forestLoopE A (.const 2) ((BDD.one : BDD m) :: List.replicate 52 .zero) (.const 0) (.const 1)
    (addConst A ((2 : ℤ) : ℚ) s).2 = F at e1 s1
  obtain ⟨⟨F1, F2⟩, F3⟩ := F
  simp only at e1 s1
  have e1' := Prod.ext_iff.mp e1
  simp only [v1, v2] at e1'
  obtain ⟨rfl, rfl⟩ := e1'
  -- the last bit
  have r53 : A.rnd (2 ^ 52 * 2) = ((2 ^ 53 : ℤ) : ℚ) := by
    rw [show (2 ^ 52 * 2 : ℚ) = ((2 ^ 53 : ℤ) : ℚ) by norm_num]
    exact hr.int _ (by norm_num)
  have r54 : A.rnd (2 ^ 53 * 2) = ((2 ^ 54 : ℤ) : ℚ) := by
    rw [show (2 ^ 53 * 2 : ℚ) = 2 ^ 54 by norm_num, hr.exact (isDouble_two_pow (by norm_num))]
    · norm_num
    · rw [abs_of_nonneg (by norm_num)]
      exact pow_le_pow_right₀ (by norm_num) (by norm_num)
  obtain ⟨a1, b1⟩ := addConst_int (A := A) h0 h1 (2 ^ 53) F3 s1
  obtain ⟨a2, b2⟩ := addConst_int (A := A) h0 h1 (2 ^ 54) _ b1
  obtain ⟨a3, b3⟩ := addConst_int (A := A) h0 h1 z _ b2
  obtain ⟨a4, b4⟩ := addConst_int (A := A) h0 h1 0 _ b3
  obtain ⟨a5, b5⟩ := addConst_int (A := A) h0 h1 z _ b4
  have hz' : A.rnd (((2 ^ 53 : ℤ) : ℚ) + 1) = (z : ℚ) := by rw [← hz]; norm_num
  have hr0 : A.rnd (0 * ((2 ^ 54 : ℤ) : ℚ)) = ((0 : ℤ) : ℚ) := by
    rw [zero_mul]
    have := hr.int 0 (by norm_num)
    exact_mod_cast this
  have hr5 : A.rnd ((z : ℚ) - ((0 : ℤ) : ℚ)) = (z : ℚ) := by rw [Int.cast_zero, sub_zero]; exact hrz
  refine ⟨z, _, b5, by omega, hzhi, hz2, hrz, ?_⟩
  have hrev : (withSignBit .baseTwo ((BDD.one : BDD m) :: List.replicate 52 .zero ++ [.one])).reverse =
      .zero :: ((.one :: List.replicate 52 .zero) ++ [.one]) := by
    simp [withSignBit]
  have o1 : (ADD.ofBDD BDD.one : ADD m) = .const 1 := rfl
  have o0 : (ADD.ofBDD BDD.zero : ADD m) = .const 0 := rfl
  have c2 : (ADD.const ((2 : ℤ) : ℚ) : ADD m) = .const 2 := by norm_num
  unfold bddForestToAddE
  rw [hrev]
  simp only [ADD.addE, ADD.applyE_const, r2, i2.1, c2, forestLoopE_append, hF]
  simp only [forestLoopE, ADD.mulE, ADD.addE, ADD.subE, o1, o0, ADD.applyE_const, r53, r54, a1, a2, hz', a3, hr0, a4, hr5, a5]

theorem worst_54 (hr : Nearest A.rnd) (h0 : 0 < A.eps) (h1 : A.eps ≤ 1) (s : CTab) (hs : s.Sep A.eps) :
    ∃ (v : Nat) (s' : CTab), worstCaseErrorAddE A .baseTwo ((BDD.one : BDD m) :: List.replicate 52 .zero ++ [.one])
      [.zero] s = .ok (v, s') ∧ v % 2 = 0 := by
  obtain ⟨z, s1, hs1, z0, z54, z2, hrz, e⟩ := forest_54 (m := m) hr h0 h1 s hs
  obtain ⟨s2, hs2, e2⟩ := bddForestToAddE_eq hr h0 h1 .baseTwo [(BDD.zero : BDD m)] (by simp) s1 hs1
  obtain ⟨b, hb, eb⟩ := bddForestToAdd_spec .baseTwo [(BDD.zero : BDD m)] (by simp)
  have hb0 : b = .const 0 := ADD.ext_eval fun x => by
    rw [eb, ADD.eval_const]
    have : valAt .baseTwo [(BDD.zero : BDD m)] x = 0 := rfl
    rw [this]; simp
  obtain ⟨a3, -⟩ := addConst_int (A := A) h0 h1 z s2 hs2
  have hsub : |A.rnd ((z : ℚ) - 0)| = z := by
    rw [sub_zero, hrz, abs_of_nonneg (by exact_mod_cast z0)]
  refine ⟨toU256 z, (addConst A z s2).2, ?_, ?_⟩
  · simp only [worstCaseErrorAddE, absoluteDifferenceAddE, e, e2, hb, hb0, Except.map, bind, Except.bind,
      ADD.applyE_const, hsub, a3]
    rw [addTerminalValues_const (ADD.const (z : ℚ) : ADD m) (q := z) rfl]
    simp
  · obtain ⟨n, rfl⟩ := Int.eq_ofNat_of_zero_le z0
    rw [Int.cast_natCast, toU256_natCast (by omega)]
    omega
end Verif

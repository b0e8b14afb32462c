import Verif.Model.Adders
import Verif.Proofs.BitVec
import Verif.Proofs.Nodes
import Verif.Proofs.Average
import Mathlib.Tactic.Ring

/-!
# Lemmas about the adders
-/

namespace Verif

variable {m : Mgr}

/-! ## Carries of numbers -/

/-- Majority of three bits. -/
def maj (a b c : Bool) : Bool := a && b || a && c || b && c

theorem carryFrom_self (a b s : Nat) : carryFrom a b s s = false := by
  simp [carryFrom, Nat.mod_one]

theorem carryFrom_succ (a b : Nat) {s k : Nat} (h : s ≤ k) :
    carryFrom a b s (k + 1) = maj (a.testBit k) (b.testBit k) (carryFrom a b s k) := by
  obtain ⟨d, rfl⟩ : ∃ d, k = s + d := ⟨k - s, by omega⟩
  unfold carryFrom
  rw [show s + d + 1 - s = d + 1 by omega, show s + d - s = d by omega]
  have hbit : ∀ n : Nat, n.testBit (s + d) = decide (n / 2 ^ s / 2 ^ d % 2 = 1) := fun n => by
    rw [Nat.testBit_eq_decide_div_mod_eq, Nat.div_div_eq_div_mul, pow_add]
  rw [hbit, hbit, Nat.mod_pow_succ, Nat.mod_pow_succ]
  generalize a / 2 ^ s = a'
  generalize b / 2 ^ s = b'
  have h1 := Nat.mod_lt a' (Nat.two_pow_pos d)
  have h2 := Nat.mod_lt b' (Nat.two_pow_pos d)
  rw [pow_succ]
  generalize a' % 2 ^ d = r at *
  generalize b' % 2 ^ d = t at *
  generalize 2 ^ d = P at *
  rcases Nat.mod_two_eq_zero_or_one (a' / P) with ha | ha <;>
    rcases Nat.mod_two_eq_zero_or_one (b' / P) with hb | hb <;>
    rw [ha, hb] <;> simp [maj] <;> omega

theorem carryFrom_mono (a b : Nat) {s t k : Nat} (h : s ≤ t) (hk : t ≤ k)
    (hc : carryFrom a b t k = true) : carryFrom a b s k = true := by
  induction k, hk using Nat.le_induction with
  | base => rw [carryFrom_self] at hc; cases hc
  | succ k hk ih =>
    rw [carryFrom_succ a b hk] at hc
    rw [carryFrom_succ a b (h.trans hk)]
    cases h1 : carryFrom a b t k with
    | true => rw [ih h1]; rwa [h1] at hc
    | false =>
      rw [h1] at hc
      revert hc
      cases a.testBit k <;> cases b.testBit k <;> cases carryFrom a b s k <;> simp [maj]

/-- Value of the sum bits of an adder with carries `c`: every carry that is produced but not passed on
is missing in the result. -/
theorem sum_value (a b : Nat) (c : Nat → Bool) (h0 : c 0 = false) (k : Nat)
    (h : ∀ i < k, c (i + 1) = true → maj (a.testBit i) (b.testBit i) (c i) = true) :
    uval ((List.range k).map (fun i => (a.testBit i ^^ b.testBit i ^^ c i))) + 2 ^ k * (c k).toNat +
      ∑ i ∈ Finset.range k, 2 ^ (i + 1) *
        (maj (a.testBit i) (b.testBit i) (c i) && !c (i + 1)).toNat = a % 2 ^ k + b % 2 ^ k := by
  induction k with
  | zero => simp [uval, h0, Nat.mod_one]
  | succ k ih =>
    specialize ih (fun i hi => h i (by omega))
    have hk := h k (by omega)
    rw [List.range_succ, List.map_append, uval_append, Finset.sum_range_succ, Nat.mod_pow_succ,
      Nat.mod_pow_succ]
    have hbit : ∀ n : Nat, n / 2 ^ k % 2 = (n.testBit k).toNat := fun n => by
      rw [Nat.testBit_eq_decide_div_mod_eq]
      rcases Nat.mod_two_eq_zero_or_one (n / 2 ^ k) with h | h <;> simp [h]
    rw [hbit, hbit]
    simp only [List.map_cons, List.map_nil, List.length_map, List.length_range, uval]
    rw [pow_succ 2 k]
    generalize uval _ = U at *
    generalize (Finset.sum (Finset.range k) _ : Nat) = S at *
    generalize 2 ^ k = P at *
    generalize a % P = r at *
    generalize b % P = t at *
    revert hk ih
    cases a.testBit k <;> cases b.testBit k <;> cases c k <;> cases c (k + 1) <;>
      simp [maj] <;> omega

/-! ## Operands -/

theorem opA_testBit {n i : Nat} (x : Asg) (h : i < n) : (opA n x).testBit i = x (2 * i) := by
  simp [opA, uval_testBit, h]

theorem opB_testBit {n i : Nat} (x : Asg) (h : i < n) : (opB n x).testBit i = x (2 * i + 1) := by
  simp [opB, uval_testBit, h]

theorem opA_lt (n : Nat) (x : Asg) : opA n x < 2 ^ n := by
  have := uval_lt ((List.range n).map (fun i => x (2 * i)))
  rwa [List.length_map, List.length_range] at this

theorem opB_lt (n : Nat) (x : Asg) : opB n x < 2 ^ n := by
  have := uval_lt ((List.range n).map (fun i => x (2 * i + 1)))
  rwa [List.length_map, List.length_range] at this

theorem vget_input1 {n i : Nat} (h : i < n) : vget (input1 n : List (BDD m)) i = .ok (.var (i * 2)) := by
  rw [vget_eq _ i .zero (by simp [input1, h])]
  simp [input1, h]

theorem vget_input2 {n i : Nat} (h : i < n) :
    vget (input2 n : List (BDD m)) i = .ok (.var (i * 2 + 1)) := by
  rw [vget_eq _ i .zero (by simp [input2, h])]
  simp [input2, h]

theorem eval_carryGenerate (a b c : BDD m) (x : Asg) :
    (carryGenerate a b c).eval x = maj (a.eval x) (b.eval x) (c.eval x) := by
  simp [carryGenerate, maj]

/-- A list of carries: the carry into position `k + 1` is computed from bit `s (k + 1)` on. -/
def Carries (n : Nat) (s : Nat → Nat) (cs : List (BDD m)) : Prop :=
  ∀ k b, cs[k]? = some b → ∀ x,
    b.eval x = carryFrom (opA n x) (opB n x) (s (k + 1)) (k + 1)

theorem Carries.append {n : Nat} {s : Nat → Nat} {cs : List (BDD m)} (h : Carries n s cs) {t : BDD m}
    {i : Nat} (hi : cs.length = i)
    (ht : ∀ x, t.eval x = carryFrom (opA n x) (opB n x) (s (i + 1)) (i + 1)) :
    Carries n s (cs ++ [t]) := by
  intro k b hb
  rcases lt_trichotomy k cs.length with hk | hk | hk
  · rw [List.getElem?_append_left hk] at hb; exact h k b hb
  · subst hi hk
    simp at hb
    subst hb
    exact ht
  · rw [List.getElem?_append_right hk.le] at hb
    rw [List.getElem?_eq_none (by simp; omega)] at hb
    cases hb

theorem Carries.nil (n : Nat) (s : Nat → Nat) : Carries n s ([] : List (BDD m)) := by
  intro k b hb; simp at hb

/-- Passing the last carry on. -/
theorem Carries.step {n : Nat} {s : Nat → Nat} {cs : List (BDD m)} (h : Carries n s cs) {i : Nat}
    (hi : cs.length = i + 1) (hin : i + 1 < n) (hs : s (i + 1) ≤ i + 1)
    (hs' : s (i + 2) = s (i + 1)) : ∃ c, vback cs = .ok c ∧
      ∀ x, (carryGenerate (.var ((i + 1) * 2)) (.var ((i + 1) * 2 + 1)) c).eval x =
        carryFrom (opA n x) (opB n x) (s (i + 1 + 1)) (i + 1 + 1) := by
  have hne : cs ≠ [] := by rintro rfl; simp at hi
  refine ⟨_, vback_ne_nil hne, fun x => ?_⟩
  have hl : cs[i]? = some (cs.getLast hne) := by
    rw [List.getLast_eq_getElem, List.getElem?_eq_getElem (by omega)]
    simp [hi]
  rw [eval_carryGenerate, h i _ hl x, hs', carryFrom_succ _ _ hs, opA_testBit x hin, opB_testBit x hin]
  simp [mul_comm]

/-- The first carry. -/
theorem first_carry {n : Nat} (hn : 0 < n) (x : Asg) :
    (carryGenerate (.var (0 * 2)) (.var (0 * 2 + 1)) .zero : BDD m).eval x =
      carryFrom (opA n x) (opB n x) 0 (0 + 1) := by
  rw [eval_carryGenerate, carryFrom_succ _ _ (le_refl 0), carryFrom_self, opA_testBit x hn,
    opB_testBit x hn]
  simp

theorem prefixLoop_spec {n : Nat} {s : Nat → Nat} : ∀ (k i : Nat) (cs : List (BDD m)), i + k ≤ n →
    cs.length = i → (∀ j ≤ i + k, s j = 0) → Carries n s cs →
    ∃ cs', prefixLoop (input1 n) (input2 n) k i cs = .ok cs' ∧ cs'.length = i + k ∧ Carries n s cs'
  | 0, i, cs, _, hl, _, hc => ⟨cs, rfl, hl, hc⟩
  | k + 1, i, cs, hn, hl, hs, hc => by
    simp only [prefixLoop, vget_input1 (show i < n by omega), vget_input2 (show i < n by omega), bind,
      Except.bind]
    have key : ∀ t : BDD m, (∀ x, t.eval x = carryFrom (opA n x) (opB n x) (s (i + 1)) (i + 1)) →
        ∃ cs', prefixLoop (input1 n) (input2 n) k (i + 1) (cs ++ [t]) = .ok cs' ∧
          cs'.length = i + (k + 1) ∧ Carries n s cs' := fun t ht => by
      obtain ⟨cs', h1, h2, h3⟩ := prefixLoop_spec k (i + 1) (cs ++ [t]) (by omega) (by simp [hl])
        (fun j hj => hs j (by omega)) (hc.append hl ht)
      exact ⟨cs', h1, by omega, h3⟩
    by_cases h0 : i = 0
    · subst h0
      simp only [if_true]
      exact key _ (fun x => by rw [hs 1 (by omega)]; exact first_carry (by omega) x)
    · rw [if_neg h0]
      obtain ⟨i', rfl⟩ : ∃ i', i = i' + 1 := ⟨i - 1, by omega⟩
      obtain ⟨c, hb, he⟩ := hc.step hl (by omega) (by rw [hs _ (by omega)]; omega)
        (by rw [hs _ (by omega), hs _ (by omega)])
      rw [hb]
      exact key _ he

theorem prefixLoop_ub {n : Nat} : ∀ (k i : Nat) (cs : List (BDD m)), n < i + k → i ≤ n →
    cs.length = i → prefixLoop (input1 n) (input2 n) k i cs = .error .ub
  | 0, i, cs, h, hi, _ => by omega
  | k + 1, i, cs, h, hi, hl => by
    rw [prefixLoop]
    by_cases hin : i < n
    · simp only [vget_input1 hin, vget_input2 hin, bind, Except.bind]
      by_cases h0 : i = 0
      · simp only [if_pos h0]
        exact prefixLoop_ub k (i + 1) _ (by omega) (by omega) (by simp [hl])
      · have hne : cs ≠ [] := by rintro rfl; simp at hl; omega
        simp only [if_neg h0, vback_ne_nil hne]
        exact prefixLoop_ub k (i + 1) _ (by omega) (by omega) (by simp [hl])
    · rw [vget_error _ _ (by simp [input1]; omega)]
      rfl

theorem windowLoop_spec {n i : Nat} (hi : i < n) : ∀ (j s : Nat) (t : BDD m), s ≤ i + 1 - j →
    (∀ x, t.eval x = carryFrom (opA n x) (opB n x) s (i + 1 - j)) →
    ∃ t', windowLoop (input1 n) (input2 n) i j t = .ok t' ∧
      ∀ x, t'.eval x = carryFrom (opA n x) (opB n x) s (i + 1)
  | 0, s, t, _, ht => ⟨t, rfl, ht⟩
  | j + 1, s, t, hs, ht => by
    rw [windowLoop]
    by_cases hj : j ≤ i
    · simp only [if_pos hj, vget_input1 (show i - j < n by omega),
        vget_input2 (show i - j < n by omega), bind, Except.bind]
      refine windowLoop_spec hi j s _ (by omega) (fun x => ?_)
      rw [eval_carryGenerate, ht x, show i + 1 - j = (i - j) + 1 by omega,
        carryFrom_succ _ _ (by omega), opA_testBit x (by omega), opB_testBit x (by omega),
        show i + 1 - (j + 1) = i - j by omega]
      simp [mul_comm]
    · rw [if_neg hj]
      refine windowLoop_spec hi j s t (by omega) (fun x => ?_)
      rw [ht x, show i + 1 - (j + 1) = i + 1 - j by omega]

theorem windowLoop_zero {n i : Nat} (hi : i < n) (w : Nat) :
    ∃ t' : BDD m, windowLoop (input1 n) (input2 n) i w .zero = .ok t' ∧
      ∀ x, t'.eval x = carryFrom (opA n x) (opB n x) (i + 1 - w) (i + 1) :=
  windowLoop_spec hi w _ _ (le_refl _) (fun x => by rw [carryFrom_self]; rfl)

theorem aca1Loop_spec {n w : Nat} {s : Nat → Nat} : ∀ (k i : Nat) (cs : List (BDD m)), i + k ≤ n →
    cs.length = i → (∀ j, i < j → j ≤ i + k → s j = j - w) → Carries n s cs →
    ∃ cs', aca1Loop (input1 n) (input2 n) w k i cs = .ok cs' ∧ cs'.length = i + k ∧ Carries n s cs'
  | 0, i, cs, _, hl, _, hc => ⟨cs, rfl, hl, hc⟩
  | k + 1, i, cs, hn, hl, hs, hc => by
    obtain ⟨t, ht, he⟩ := windowLoop_zero (m := m) (show i < n by omega) w
    simp only [aca1Loop, ht, bind, Except.bind]
    obtain ⟨cs', h1, h2, h3⟩ := aca1Loop_spec k (i + 1) (cs ++ [t]) (by omega) (by simp [hl])
      (fun j h1 h2 => hs j (by omega) (by omega))
      (hc.append hl (fun x => by rw [he, hs (i + 1) (by omega) (by omega)]))
    exact ⟨cs', h1, by omega, h3⟩

theorem blockLoop_spec {n parts w : Nat} (hp : 2 ≤ n → parts ≠ 0 ∧ n / parts ≠ 0) {s : Nat → Nat}
    (hle : ∀ j, s j ≤ j) (h1 : s 1 = 0) (hs : ∀ i, 1 ≤ i → i < n → s (i + 1) =
      if (i + 1) % (n / parts) = 0 ∧ i + 1 ≠ n then i + 1 - w else s i) :
    ∀ (k i : Nat) (cs : List (BDD m)), i + k = n → cs.length = i → Carries n s cs →
    ∃ cs', blockLoop n parts w (input1 n) (input2 n) k i cs = .ok cs' ∧ cs'.length = n ∧
      Carries n s cs'
  | 0, i, cs, hn, hl, hc => ⟨cs, rfl, by omega, hc⟩
  | k + 1, i, cs, hn, hl, hc => by
    simp only [blockLoop, vget_input1 (show i < n by omega), vget_input2 (show i < n by omega), bind,
      Except.bind]
    have key : ∀ t : BDD m, (∀ x, t.eval x = carryFrom (opA n x) (opB n x) (s (i + 1)) (i + 1)) →
        ∃ cs', blockLoop n parts w (input1 n) (input2 n) k (i + 1) (cs ++ [t]) = .ok cs' ∧
          cs'.length = n ∧ Carries n s cs' := fun t ht =>
      blockLoop_spec hp hle h1 hs k (i + 1) (cs ++ [t]) (by omega) (by simp [hl]) (hc.append hl ht)
    by_cases h0 : i = 0
    · subst h0
      simp only [if_true]
      exact key _ (fun x => by rw [h1]; exact first_carry (by omega) x)
    · obtain ⟨i', rfl⟩ : ∃ i', i = i' + 1 := ⟨i - 1, by omega⟩
      obtain ⟨hp1, hp2⟩ := hp (by omega)
      rw [if_neg h0, if_neg hp1, if_neg hp2]
      specialize hs (i' + 1) (by omega) (by omega)
      split
      · rename_i hr
        rw [if_pos hr] at hs
        obtain ⟨t, ht, he⟩ := windowLoop_zero (m := m) (show i' + 1 < n by omega) w
        simp only [ht]
        exact key t (fun x => by rw [he, hs])
      · rename_i hr
        rw [if_neg hr] at hs
        obtain ⟨c, hb, he⟩ := hc.step hl (by omega) (hle _) hs
        simp only [hb]
        exact key _ he

theorem blockLoop_ub {n parts w : Nat} (hn : 2 ≤ n) (hp : parts = 0 ∨ n / parts = 0) :
    blockLoop n parts w (input1 n) (input2 n) n 0 ([] : List (BDD m)) = .error .ub := by
  obtain ⟨k, rfl⟩ : ∃ k, n = k + 2 := ⟨n - 2, by omega⟩
  rw [show k + 2 = (k + 1) + 1 from rfl, blockLoop]
  simp only [vget_input1 (show 0 < k + 1 + 1 by omega), vget_input2 (show 0 < k + 1 + 1 by omega),
    bind, Except.bind, if_true]
  rw [blockLoop]
  simp only [vget_input1 (show 0 + 1 < k + 1 + 1 by omega), vget_input2 (show 0 + 1 < k + 1 + 1 by omega),
    bind, Except.bind]
  rw [if_neg (by omega)]
  by_cases h : parts = 0
  · rw [if_pos h]
  · rw [if_neg h, if_pos (hp.resolve_left h)]

theorem sumLoop_spec {n : Nat} {s : Nat → Nat} (cs : List (BDD m)) (hl : cs.length = n) (h0 : s 0 = 0)
    (hc : Carries n s cs) : ∀ (k i : Nat), i + k = n →
    ∃ out, sumLoop (input1 n) (input2 n) cs k i = .ok out ∧ out.length = k ∧ ∀ x, bitsAt out x =
      (List.range' i k).map (fun i => ((opA n x).testBit i ^^ (opB n x).testBit i ^^
        carryFrom (opA n x) (opB n x) (s i) i))
  | 0, i, _ => ⟨[], rfl, rfl, fun x => rfl⟩
  | k + 1, i, hk => by
    obtain ⟨out, h1, h2, h3⟩ := sumLoop_spec cs hl h0 hc k (i + 1) (by omega)
    simp only [sumLoop, vget_input1 (show i < n by omega), vget_input2 (show i < n by omega), h1, bind,
      Except.bind]
    have key : ∀ c : BDD m, (∀ x, c.eval x = carryFrom (opA n x) (opB n x) (s i) i) →
        ∃ out', (Except.ok ((BDD.var (i * 2)).xor ((BDD.var (i * 2 + 1)).xor c) :: out) :
          Except Fault (List (BDD m))) = .ok out' ∧ out'.length = k + 1 ∧ ∀ x, bitsAt out' x =
      (List.range' i (k + 1)).map (fun i => ((opA n x).testBit i ^^ (opB n x).testBit i ^^
        carryFrom (opA n x) (opB n x) (s i) i)) := fun c hx => by
      refine ⟨_, rfl, by simp [h2], fun x => ?_⟩
      have := h3 x
      unfold bitsAt at this ⊢
      rw [List.map_cons, this, List.range'_succ, List.map_cons]
      rw [BDD.eval_xor, BDD.eval_xor, hx, opA_testBit x (by omega), opB_testBit x (by omega)]
      simp [mul_comm]
    by_cases hi : i = 0
    · subst hi
      simp only [if_true]
      exact key _ (fun x => by rw [h0, carryFrom_self]; rfl)
    · rw [if_neg hi, vget_eq cs (i - 1) .zero (by omega)]
      refine key _ (fun x => ?_)
      have := hc (i - 1) (cs.getD (i - 1) .zero) (by
        rw [List.getElem?_eq_getElem (by omega), List.getD_eq_getElem _ _ (by omega)]) x
      rw [this, show i - 1 + 1 = i by omega]

/-- What all approximate adders have in common. -/
structure AdderOk (n : Nat) (s : Nat → Nat) (f : List (BDD m)) : Prop where
  len : f.length = n + 1
  bits : ∀ x, bitsAt f x = (List.range n).map (fun i => ((opA n x).testBit i ^^ (opB n x).testBit i ^^
        carryFrom (opA n x) (opB n x) (s i) i)) ++ [carryFrom (opA n x) (opB n x) (s n) n]
  zero : s 0 = 0
  le : ∀ k, s k ≤ k
  mono : ∀ k < n, s k ≤ s (k + 1)

theorem finishAdder_spec {n : Nat} (hn : 0 < n) {s : Nat → Nat} (cs : List (BDD m))
    (hl : cs.length = n) (hc : Carries n s cs) (hle : ∀ k, s k ≤ k)
    (hmono : ∀ k < n, s k ≤ s (k + 1)) : ∃ f, finishAdder n cs = .ok f ∧ AdderOk n s f := by
  have h0 : s 0 = 0 := by have := hle 0; omega
  obtain ⟨out, h1, h2, h3⟩ := sumLoop_spec cs hl h0 hc n 0 (by omega)
  have hne : cs ≠ [] := by rintro rfl; simp at hl; omega
  refine ⟨out ++ [cs.getLast hne], by simp only [finishAdder, h1, vback_ne_nil hne, bind, Except.bind],
    by simp [h2], fun x => ?_, h0, hle, hmono⟩
  have := h3 x
  unfold bitsAt at this ⊢
  rw [List.map_append, this, List.range_eq_range']
  congr 1
  rw [List.map_cons, List.map_nil]
  congr 1
  have hx := hc (n - 1) (cs.getLast hne) (by
    rw [List.getLast_eq_getElem, List.getElem?_eq_getElem (by omega)]; simp [hl]) x
  rw [hx, show n - 1 + 1 = n by omega]

theorem finishAdder_empty : finishAdder 0 ([] : List (BDD m)) = .error .ub := rfl

namespace AdderOk

variable {n : Nat} {s : Nat → Nat} {f : List (BDD m)}

/-- Exact sum = value + lost carries. -/
theorem lost (h : AdderOk n s f) (x : Asg) :
    uAt f x + ∑ i ∈ Finset.range n, 2 ^ (i + 1) * (carryFrom (opA n x) (opB n x) (s i) (i + 1) &&
      !carryFrom (opA n x) (opB n x) (s (i + 1)) (i + 1)).toNat = opA n x + opB n x := by
  have := sum_value (opA n x) (opB n x) (fun i => carryFrom (opA n x) (opB n x) (s i) i)
    (by rw [h.zero]; exact carryFrom_self _ _ _) n (fun i hi hc => by
      rw [← carryFrom_succ _ _ (h.le i)]
      exact carryFrom_mono _ _ (h.mono i hi) (h.le _) hc)
  rw [Nat.mod_eq_of_lt (opA_lt n x), Nat.mod_eq_of_lt (opB_lt n x)] at this
  rw [← this]
  unfold uAt
  rw [h.bits x, uval_append]
  simp only [List.length_map, List.length_range, uval]
  congr 1
  exact Finset.sum_congr rfl (fun i hi => by rw [carryFrom_succ _ _ (h.le i)])

theorem le_sum (h : AdderOk n s f) (x : Asg) : uAt f x ≤ opA n x + opB n x := by
  rw [← h.lost x]; exact Nat.le_add_right _ _

/-- Exact iff every carry used is the true one. -/
theorem exact_iff (h : AdderOk n s f) (x : Asg) : uAt f x = opA n x + opB n x ↔
    ∀ k ≤ n, carryFrom (opA n x) (opB n x) 0 k = true → carryFrom (opA n x) (opB n x) (s k) k = true := by
  have hl := h.lost x
  set a := opA n x
  set b := opB n x
  constructor
  · intro he k hk
    have hz : ∑ i ∈ Finset.range n, 2 ^ (i + 1) * (carryFrom a b (s i) (i + 1) &&
      !carryFrom a b (s (i + 1)) (i + 1)).toNat = 0 := by omega
    rw [Finset.sum_eq_zero_iff] at hz
    induction k with
    | zero => rw [h.zero]; exact fun h => h
    | succ k ih =>
      intro hc
      specialize ih (by omega)
      have hzk := hz k (Finset.mem_range.mpr (by omega))
      have hp := Nat.two_pow_pos (k + 1)
      have h1 : carryFrom a b (s k) (k + 1) = true := by
        rw [carryFrom_succ _ _ (Nat.zero_le _)] at hc
        rw [carryFrom_succ _ _ (h.le k)]
        cases h2 : carryFrom a b 0 k with
        | true => rw [ih h2]; rwa [h2] at hc
        | false =>
          rw [h2] at hc
          revert hc
          cases a.testBit k <;> cases b.testBit k <;> cases carryFrom a b (s k) k <;> simp [maj]
      rw [h1] at hzk
      cases h3 : carryFrom a b (s (k + 1)) (k + 1) with
      | true => rfl
      | false => rw [h3] at hzk; simp at hzk
  · intro hc
    have hz : ∑ i ∈ Finset.range n, 2 ^ (i + 1) * (carryFrom a b (s i) (i + 1) &&
      !carryFrom a b (s (i + 1)) (i + 1)).toNat = 0 := by
      apply Finset.sum_eq_zero
      intro i hi
      rw [Finset.mem_range] at hi
      cases h1 : carryFrom a b (s i) (i + 1) with
      | false => simp
      | true =>
        rw [hc (i + 1) (by omega) (carryFrom_mono _ _ (Nat.zero_le _) (by have := h.le i; omega) h1)]
        simp
    omega

/-- Every result bit: the sum of the operand bits and the carry from the window. -/
theorem testBit (h : AdderOk n s f) (x : Asg) {i : Nat} (hi : i < n) : (uAt f x).testBit i =
    ((opA n x).testBit i ^^ (opB n x).testBit i ^^ carryFrom (opA n x) (opB n x) (s i) i) := by
  unfold uAt
  rw [h.bits x, uval_testBit, List.getD_eq_getElem?_getD,
    List.getElem?_append_left (by simpa using hi)]
  simp [hi]

theorem testBit_last (h : AdderOk n s f) (x : Asg) : (uAt f x).testBit n =
    carryFrom (opA n x) (opB n x) (s n) n := by
  unfold uAt
  rw [h.bits x, uval_testBit, List.getD_eq_getElem?_getD, List.getElem?_append_right (by simp)]
  simp

end AdderOk

/-- The carries of the exact sum. -/
theorem testBit_add_carry (a b i : Nat) :
    (a + b).testBit i = (a.testBit i ^^ b.testBit i ^^ carryFrom a b 0 i) := by
  have := sum_value a b (fun i => carryFrom a b 0 i) (carryFrom_self _ _ _) (i + 1) (fun j _ hc => by
    rwa [carryFrom_succ _ _ (Nat.zero_le _)] at hc)
  beta_reduce at this
  have hz : ∑ j ∈ Finset.range (i + 1), 2 ^ (j + 1) * (maj (a.testBit j) (b.testBit j)
      (carryFrom a b 0 j) && !carryFrom a b 0 (j + 1)).toNat = 0 := by
    apply Finset.sum_eq_zero
    intro j _
    rw [carryFrom_succ _ _ (Nat.zero_le _)]
    simp
  rw [hz, add_zero] at this
  have h2 : (a + b) % 2 ^ (i + 1) =
      uval ((List.range (i + 1)).map (fun i => (a.testBit i ^^ b.testBit i ^^ carryFrom a b 0 i))) := by
    rw [Nat.add_mod, ← this, Nat.add_mul_mod_self_left]
    apply Nat.mod_eq_of_lt
    have := uval_lt ((List.range (i + 1)).map
      (fun i => (a.testBit i ^^ b.testBit i ^^ carryFrom a b 0 i)))
    rwa [List.length_map, List.length_range] at this
  have h3 : (a + b).testBit i = ((a + b) % 2 ^ (i + 1)).testBit i := by
    rw [Nat.testBit_mod_two_pow]; simp
  rw [h3, h2, uval_testBit]
  simp

/-! ## The four adders -/

theorem u32sub_eq {a b : Nat} (h : b ≤ a) (ha : a < 2 ^ 32) : u32sub a b = a - b := by
  unfold u32sub
  rw [show a + 2 ^ 32 - b = (a - b) + 2 ^ 32 by omega, Nat.add_mod_right, Nat.mod_eq_of_lt (by omega)]

theorem u32sub_zero_one : u32sub 0 1 = 2 ^ 32 - 1 := rfl

theorem downFrom_pred {q : Nat} (hq : q ≤ 2 ^ 31) : downFrom (u32sub q 1) = q := by
  rcases Nat.eq_zero_or_pos q with rfl | h
  · rfl
  · rw [u32sub_eq (by omega) (by omega), downFrom, if_pos (by omega)]
    omega

theorem downFrom_pred2 {p : Nat} (h1 : 1 ≤ p) (hp : p ≤ 2 ^ 31) : downFrom (u32sub p 2) = p - 1 := by
  rcases Nat.eq_or_lt_of_le h1 with rfl | h
  · rfl
  · rw [u32sub_eq (by omega) (by omega), downFrom, if_pos (by omega)]
    omega

theorem almostCorrectAdder1_spec (asserts : Bool) {n p : Nat} (hn : 0 < n) (hn' : n < 2 ^ 31)
    (hp : 1 ≤ p) (hpn : p ≤ n ∨ (asserts = false ∧ p = n + 1)) :
    ∃ f : List (BDD m), almostCorrectAdder1 asserts n p = .ok f ∧ AdderOk n (aca1Start p) f := by
  unfold almostCorrectAdder1
  rw [if_neg (by rcases hpn with h | ⟨h, _⟩ <;> (simp [*]; try omega)), u32sub_eq hp (by omega),
    downFrom_pred2 hp (by omega)]
  obtain ⟨cs, h1, h2, h3⟩ := prefixLoop_spec (m := m) (n := n) (s := aca1Start p) (p - 1) 0 [] (by omega)
    rfl (fun j hj => by unfold aca1Start; omega) (Carries.nil _ _)
  obtain ⟨cs', g1, g2, g3⟩ := aca1Loop_spec (m := m) (n := n) (w := p - 1) (s := aca1Start p)
    (n - (p - 1)) (p - 1) cs (by omega) (by omega) (fun j _ _ => rfl) h3
  obtain ⟨f, e1, e2⟩ := finishAdder_spec hn cs' (by omega) g3 (fun k => by unfold aca1Start; omega)
    (fun k _ => by unfold aca1Start; omega)
  exact ⟨f, by simp only [h1, g1, e1, bind, Except.bind], e2⟩

theorem blockStart_le (n l q k : Nat) : blockStart n l q k ≤ k := by
  unfold blockStart
  have : min k (n - 1) / l * l ≤ min k (n - 1) := Nat.div_mul_le_self _ _
  split <;> omega

theorem blockStart_mono (n l q k : Nat) : blockStart n l q k ≤ blockStart n l q (k + 1) := by
  unfold blockStart
  have : min k (n - 1) / l * l ≤ min (k + 1) (n - 1) / l * l :=
    Nat.mul_le_mul_right _ (Nat.div_le_div_right (by omega))
  split <;> split <;> omega

theorem blockStart_succ {n l q i : Nat} (h1 : 1 ≤ i) (hi : i < n) :
    blockStart n l q (i + 1) =
      if (i + 1) % l = 0 ∧ i + 1 ≠ n then i + 1 - q else blockStart n l q i := by
  unfold blockStart
  by_cases h : (i + 1) % l = 0 ∧ i + 1 ≠ n
  · rw [if_pos h]
    obtain ⟨h, hne⟩ := h
    rw [show min (i + 1) (n - 1) = i + 1 by omega, Nat.div_mul_cancel (Nat.dvd_of_mod_eq_zero h),
      if_neg (by omega)]
  · rw [if_neg h]
    have : min (i + 1) (n - 1) / l = min i (n - 1) / l := by
      by_cases he : i + 1 = n
      · rw [show min (i + 1) (n - 1) = min i (n - 1) by omega]
      · rw [show min (i + 1) (n - 1) = i + 1 by omega, show min i (n - 1) = i by omega]
        rw [Nat.succ_div, if_neg (fun hd => h ⟨Nat.mod_eq_zero_of_dvd hd, he⟩), add_zero]
    rw [this]

theorem blockAdder_spec {n parts w : Nat} (hn : 0 < n) (hp : 2 ≤ n → parts ≠ 0 ∧ n / parts ≠ 0) :
    ∃ f : List (BDD m), (do
      let cs ← blockLoop n parts w (input1 n) (input2 n) n 0 []
      finishAdder n cs) = .ok f ∧ AdderOk n (blockStart n (n / parts) w) f := by
  obtain ⟨cs, h1, h2, h3⟩ := blockLoop_spec (m := m) (w := w) hp (s := blockStart n (n / parts) w)
    (blockStart_le _ _ _) (by
      unfold blockStart
      have : min 1 (n - 1) / (n / parts) * (n / parts) ≤ min 1 (n - 1) := Nat.div_mul_le_self _ _
      rw [if_pos (by omega)])
    (fun i hi hin => blockStart_succ hi hin) n 0 [] (by omega) rfl
    (Carries.nil _ _)
  obtain ⟨f, e1, e2⟩ := finishAdder_spec hn cs h2 h3 (blockStart_le _ _ _)
    (fun k _ => blockStart_mono _ _ _ k)
  exact ⟨f, by simp only [h1, e1, bind, Except.bind], e2⟩

theorem gearWindow_eq {n i : Nat} (hi : i < 2 ^ 32) : ∀ (j : Nat) (t : BDD m), j ≤ i + 1 →
    gearWindow (input1 n) (input2 n) i j t = windowLoop (input1 n) (input2 n) i j t
  | 0, t, _ => rfl
  | j + 1, t, hj => by
    rw [gearWindow, windowLoop, if_pos (by omega), u32sub_eq (by omega) hi]
    cases vget (input1 n : List (BDD m)) (i - j) with
    | error => rfl
    | ok a =>
      cases vget (input2 n : List (BDD m)) (i - j) with
      | error => rfl
      | ok b => exact gearWindow_eq hi j _ (by omega)

theorem gearStart_le (n res prev k : Nat) : gearStart n res prev k ≤ k := by
  unfold gearStart
  split <;> omega

theorem gearStart_succ {n res prev i : Nat} (hlen : res + prev ≤ i + 1) (hi : i < n) :
    gearStart n res prev (i + 1) = if (i + 1 - (res + prev)) % res = 0 ∧ i ≠ n - 1 then i + 1 - prev
      else gearStart n res prev i := by
  unfold gearStart
  by_cases hn : i = n - 1
  · rw [if_neg (c := _ ∧ _) (by simp [hn]), show min (i + 1) (n - 1) = min i (n - 1) by omega]
  · rw [show min (i + 1) (n - 1) = i + 1 by omega, show min i (n - 1) = i by omega, if_neg (by omega)]
    by_cases hr : (i + 1 - (res + prev)) % res = 0
    · rw [if_pos ⟨hr, hn⟩, hr, Nat.sub_zero]
    · rw [if_neg (fun h => hr h.1)]
      have hlt : res + prev ≤ i := by
        by_contra hh
        rw [show i + 1 - (res + prev) = 0 by omega] at hr
        simp at hr
      rw [if_neg (by omega)]
      have hs : i + 1 - (res + prev) = (i - (res + prev)) + 1 := by omega
      rw [hs] at hr ⊢
      rcases Nat.eq_zero_or_pos res with rfl | hpos
      · simp
      have := Nat.mod_lt (i - (res + prev)) hpos
      have h3 : (i - (res + prev) + 1) % res = (i - (res + prev)) % res + 1 := by
        rw [Nat.add_mod] at hr ⊢
        rcases Nat.eq_or_lt_of_le (show 1 ≤ res from hpos) with rfl | h1
        · simp [Nat.mod_one] at hr
        · rw [Nat.mod_eq_of_lt h1] at hr ⊢
          by_cases h2 : (i - (res + prev)) % res + 1 = res
          · rw [h2] at hr; simp at hr
          · exact Nat.mod_eq_of_lt (by omega)
      have h4 := Nat.mod_le (i - (res + prev)) res
      omega

theorem gearStart_mono {n res prev k : Nat} (h : k < n) :
    gearStart n res prev k ≤ gearStart n res prev (k + 1) := by
  by_cases hk : res + prev ≤ k + 1
  · rw [gearStart_succ hk h]
    split
    · unfold gearStart
      split <;> omega
    · exact le_refl _
  · unfold gearStart
    rw [if_pos (by omega)]
    exact Nat.zero_le _

/-- Value of `count` after `d` iterations. -/
def gearCount (res d : Nat) : Nat := if d = 0 then res else (d - 1) % res + 1

theorem gearCount_eq (res d : Nat) : gearCount res d = res ↔ d % res = 0 := by
  unfold gearCount
  split
  · rename_i h; simp [h]
  · rename_i h
    rcases Nat.eq_zero_or_pos res with rfl | hpos
    · simp; omega
    obtain ⟨e, rfl⟩ : ∃ e, d = e + 1 := ⟨d - 1, by omega⟩
    rw [Nat.add_sub_cancel, Nat.add_mod]
    have := Nat.mod_lt e hpos
    rcases Nat.eq_or_lt_of_le (show 1 ≤ res from hpos) with rfl | h1
    · simp [Nat.mod_one]
    · rw [Nat.mod_eq_of_lt h1]
      constructor
      · intro h; rw [h]; simp
      · intro h
        by_contra hne
        rw [Nat.mod_eq_of_lt (by omega)] at h
        omega

theorem gearCount_succ {res d : Nat} : (if d % res = 0 then 0 + 1 else gearCount res d + 1) =
    gearCount res (d + 1) := by
  have h1 : gearCount res (d + 1) = d % res + 1 := by simp [gearCount]
  rw [h1]
  split
  · rename_i h; rw [h]
  · rename_i h
    have hd : d ≠ 0 := by rintro rfl; simp at h
    rw [gearCount, if_neg hd]
    obtain ⟨e, rfl⟩ : ∃ e, d = e + 1 := ⟨d - 1, by omega⟩
    rw [Nat.add_sub_cancel]
    rcases Nat.eq_zero_or_pos res with rfl | hpos
    · simp
    have := Nat.mod_lt e hpos
    rcases Nat.eq_or_lt_of_le (show 1 ≤ res from hpos) with rfl | h1
    · simp [Nat.mod_one] at h
    · have h3 : (e + 1) % res = (e % res + 1) % res := by
        rw [Nat.add_mod, Nat.mod_eq_of_lt h1]
      rw [h3] at h ⊢
      by_cases h2 : e % res + 1 = res
      · rw [h2] at h; simp at h
      · rw [Nat.mod_eq_of_lt (show e % res + 1 < res by omega)]

theorem gearLoop_spec {n res prev : Nat} (hn : n < 2 ^ 32) (hpos : 1 ≤ res + prev)
    (hlen1 : 2 ≤ n ∨ 2 ≤ res + prev) :
    ∀ (k i d : Nat) (cs : List (BDD m)), i + k = n → i + 1 = res + prev + d → cs.length = i →
      Carries n (gearStart n res prev) cs →
    ∃ cs', gearLoop n res prev (input1 n) (input2 n) k i (gearCount res d) cs = .ok cs' ∧
      cs'.length = n ∧ Carries n (gearStart n res prev) cs'
  | 0, i, d, cs, hk, _, hl, hc => ⟨cs, rfl, by omega, hc⟩
  | k + 1, i, d, cs, hk, hd, hl, hc => by
    have hsucc := gearStart_succ (n := n) (res := res) (prev := prev) (i := i) (by omega) (by omega)
    rw [show i + 1 - (res + prev) = d by omega] at hsucc
    rw [gearLoop]
    by_cases hr : d % res = 0 ∧ i ≠ n - 1
    · rw [if_pos (by rw [gearCount_eq]; exact hr)]
      rw [if_pos hr] at hsucc
      obtain ⟨t, ht, he⟩ := windowLoop_zero (m := m) (show i < n by omega) prev
      rw [gearWindow_eq (by omega) prev _ (by omega), ht]
      simp only [bind, Except.bind]
      have hcnt := gearCount_succ (res := res) (d := d)
      rw [if_pos hr.1] at hcnt
      rw [hcnt]
      exact gearLoop_spec hn hpos hlen1 k (i + 1) (d + 1) _ (by omega) (by omega) (by simp [hl])
        (hc.append hl (fun x => by rw [he, hsucc]))
    · rw [if_neg (by rw [gearCount_eq]; exact hr)]
      rw [if_neg hr] at hsucc
      have hi0 : i ≠ 0 := by
        rintro rfl
        apply hr
        obtain rfl : d = 0 := by omega
        exact ⟨Nat.zero_mod _, by omega⟩
      obtain ⟨i', rfl⟩ : ∃ i', i = i' + 1 := ⟨i - 1, by omega⟩
      obtain ⟨c, hb, he⟩ := hc.step hl (by omega) (gearStart_le _ _ _ _) hsucc
      simp only [vget_input1 (show i' + 1 < n by omega), vget_input2 (show i' + 1 < n by omega), hb,
        bind, Except.bind]
      by_cases hlast : d % res = 0
      · have hke : k = 0 := by
          by_contra hk0
          exact hr ⟨hlast, by omega⟩
        subst hke
        exact ⟨_, rfl, by simp; omega, hc.append hl he⟩
      · have hcnt := gearCount_succ (res := res) (d := d)
        rw [if_neg hlast] at hcnt
        rw [hcnt]
        exact gearLoop_spec hn hpos hlen1 k (i' + 1 + 1) (d + 1) _ (by omega) (by omega) (by simp [hl])
          (hc.append hl he)

theorem gear_spec {n res prev : Nat} (hn : 0 < n) (hn' : n < 2 ^ 31) (h1 : 1 ≤ res + prev)
    (hle : res + prev ≤ n + 1) (h2 : 2 ≤ n ∨ 2 ≤ res + prev) :
    ∃ f : List (BDD m), genericAccuracyReconfigurableAdder n res prev = .ok f ∧
      AdderOk n (gearStart n res prev) f := by
  unfold genericAccuracyReconfigurableAdder
  rw [Nat.mod_eq_of_lt (by omega), downFrom_pred (by omega)]
  dsimp only
  rw [u32sub_eq h1 (by omega)]
  obtain ⟨cs, g1, g2, g3⟩ := prefixLoop_spec (m := m) (n := n) (s := gearStart n res prev)
    (res + prev - 1) 0 [] (by omega) rfl
    (fun j hj => by unfold gearStart; rw [if_pos (by omega)]) (Carries.nil _ _)
  by_cases hlast : res + prev = n + 1
  · rw [show n - (res + prev - 1) = 0 by omega]
    obtain ⟨f, e1, e2⟩ := finishAdder_spec hn cs (by omega) g3 (gearStart_le n res prev)
      (fun k hk => gearStart_mono hk)
    exact ⟨f, by simp only [g1, gearLoop, e1, bind, Except.bind], e2⟩
  · obtain ⟨cs', k1, k2, k3⟩ := gearLoop_spec (m := m) (n := n) (res := res) (prev := prev) (by omega)
      h1 h2 (n - (res + prev - 1)) (res + prev - 1) 0 cs (by omega) (by omega) (by omega) g3
    rw [show gearCount res 0 = res from rfl] at k1
    obtain ⟨f, e1, e2⟩ := finishAdder_spec hn cs' k2 k3 (gearStart_le n res prev)
      (fun k hk => gearStart_mono hk)
    exact ⟨f, by simp only [g1, k1, e1, bind, Except.bind], e2⟩

theorem regularLoop_spec {n : Nat} : ∀ (k i : Nat) (c : BDD m), i + k = n →
    (∀ x, c.eval x = carryFrom (opA n x) (opB n x) 0 i) →
    ∃ out, regularLoop (input1 n) (input2 n) k i c = .ok out ∧ out.length = k + 1 ∧ ∀ x, bitsAt out x =
      (List.range' i k).map (fun i => ((opA n x).testBit i ^^ (opB n x).testBit i ^^
        carryFrom (opA n x) (opB n x) 0 i)) ++ [carryFrom (opA n x) (opB n x) 0 n]
  | 0, i, c, hi, hc => ⟨[c], rfl, rfl, fun x => by
      obtain rfl : i = n := by omega
      simp [bitsAt, hc]⟩
  | k + 1, i, c, hi, hc => by
    simp only [regularLoop, vget_input1 (show i < n by omega), vget_input2 (show i < n by omega), bind,
      Except.bind]
    obtain ⟨out, h1, h2, h3⟩ := regularLoop_spec (n := n) k (i + 1)
      (fullAdder (.var (i * 2)) (.var (i * 2 + 1)) c).2 (by omega) (fun x => by
        rw [carryFrom_succ _ _ (Nat.zero_le _), opA_testBit x (show i < n by omega),
          opB_testBit x (show i < n by omega), ← hc x]
        simp [fullAdder, maj, mul_comm])
    rw [h1]
    refine ⟨_, rfl, by simp [h2], fun x => ?_⟩
    have := h3 x
    unfold bitsAt at this ⊢
    rw [List.map_cons, this, List.range'_succ, List.map_cons, opA_testBit x (show i < n by omega),
      opB_testBit x (show i < n by omega), ← hc x]
    simp [fullAdder, mul_comm]

theorem regularAdder_spec (n : Nat) : ∃ f : List (BDD m), regularAdder n = .ok f ∧
    AdderOk n (fun _ => 0) f := by
  obtain ⟨f, h1, h2, h3⟩ := regularLoop_spec (m := m) (n := n) n 0 .zero (by omega)
    (fun x => by rw [carryFrom_self]; rfl)
  exact ⟨f, h1, h2, fun x => by rw [h3, List.range_eq_range'], rfl, fun k => Nat.zero_le k,
    fun _ _ => le_refl _⟩

/-! ## `eval_adder` -/

/-- The input vector built by `eval_adder`. -/
def adderInput (a b : Int) (n : Nat) : List Nat :=
  (List.range n).flatMap (fun i => [(adderBit a i).toNat, (adderBit b i).toNat])

theorem adderInput_succ (a b : Int) (n : Nat) : adderInput a b (n + 1) =
    adderInput a b n ++ [(adderBit a n).toNat, (adderBit b n).toNat] := by
  simp [adderInput, List.range_succ]

theorem adderInput_length (a b : Int) (n : Nat) : (adderInput a b n).length = 2 * n := by
  induction n with
  | zero => rfl
  | succ n ih => rw [adderInput_succ, List.length_append, ih]; simp; omega

theorem adderInput_get (a b : Int) (n : Nat) {i : Nat} (h : i < n) :
    asgOf (adderInput a b n) (2 * i) = adderBit a i ∧
    asgOf (adderInput a b n) (2 * i + 1) = adderBit b i := by
  induction n with
  | zero => omega
  | succ n ih =>
    unfold asgOf at ih ⊢
    rw [adderInput_succ]
    have hl := adderInput_length a b n
    rcases Nat.lt_or_eq_of_le (Nat.lt_succ_iff.mp h) with h1 | h1
    · rw [List.getD_append _ _ _ _ (by omega), List.getD_append _ _ _ _ (by omega)]
      exact ih h1
    · subst h1
      rw [List.getD_append_right _ _ _ _ (by omega), List.getD_append_right _ _ _ _ (by omega), hl]
      simp

theorem toNat_emod_pow (a : Int) (n : Nat) : ((a % 2 ^ n).toNat : Int) = a % 2 ^ n :=
  Int.toNat_of_nonneg (Int.emod_nonneg _ (by positivity))

theorem toNat_emod_lt (a : Int) (n : Nat) : (a % 2 ^ n).toNat < 2 ^ n := by
  have := Int.emod_lt_of_pos a (show (0 : Int) < 2 ^ n by positivity)
  zify
  rwa [toNat_emod_pow]

/-- The low bits of the two's complement. -/
theorem testBit_emod (a : Int) {n i : Nat} (hi : i < n) :
    (a % 2 ^ n).toNat.testBit i = decide (a / 2 ^ i % 2 = 1) := by
  rw [Nat.testBit_eq_decide_div_mod_eq]
  have e : (((a % 2 ^ n).toNat / 2 ^ i % 2 : Nat) : Int) = a / 2 ^ i % 2 := by
    push_cast
    rw [toNat_emod_pow]
    obtain ⟨d, rfl⟩ : ∃ d, n = i + (d + 1) := ⟨n - i - 1, by omega⟩
    conv_rhs => rw [← Int.emod_add_mul_ediv a (2 ^ (i + (d + 1)))]
    rw [show (2 : Int) ^ (i + (d + 1)) * (a / 2 ^ (i + (d + 1))) =
        2 ^ i * (2 * (2 ^ d * (a / 2 ^ (i + (d + 1))))) by ring,
      Int.add_mul_ediv_left _ _ (by positivity : (2 : Int) ^ i ≠ 0), Int.add_mul_emod_self_left]
  congr 1
  rw [← e]
  norm_cast

theorem testBit_adderOperand (a : Int) {n i : Nat} (hn : n ≤ 32) (hi : i < n) :
    (adderOperand n a).testBit i = adderBit a i := by
  unfold adderOperand adderBit
  have hlt := toNat_emod_lt a 31
  split
  · rw [if_neg (by omega), testBit_emod a hi]
  · obtain rfl : n = 32 := by omega
    by_cases h : i = 31
    · subst h
      rw [if_pos rfl]
      split
      · rw [Nat.add_comm, Nat.testBit_two_pow_add_eq, Nat.testBit_lt_two_pow hlt]; simp; omega
      · rw [Nat.add_zero, Nat.testBit_lt_two_pow hlt]; simp; omega
    · rw [if_neg h, ← testBit_emod a (show i < 31 by omega)]
      split
      · rw [Nat.add_comm, Nat.testBit_two_pow_add_gt (by omega)]
      · rfl

theorem adderOperand_lt (a : Int) {n : Nat} (hn : n ≤ 32) : adderOperand n a < 2 ^ n := by
  unfold adderOperand
  split
  · exact toNat_emod_lt a n
  · obtain rfl : n = 32 := by omega
    have := toNat_emod_lt a 31
    split <;> omega

theorem adderOperand_nat {a n : Nat} (ha : a < 2 ^ n) (hn : n ≤ 32) : adderOperand n a = a := by
  unfold adderOperand
  split
  · rw [Int.emod_eq_of_lt (by omega) (by exact_mod_cast ha), Int.toNat_natCast]
  · obtain rfl : n = 32 := by omega
    split <;> omega

theorem opA_adderInput (a b : Int) {n : Nat} (hn : n ≤ 32) :
    opA n (asgOf (adderInput a b n)) = adderOperand n a := by
  apply uval_eq_of_getD
  intro i
  by_cases hi : i < n
  · simp [hi, (adderInput_get a b n hi).1, testBit_adderOperand a hn hi]
  · simp [hi]
    exact (Nat.testBit_lt_two_pow
      (lt_of_lt_of_le (adderOperand_lt a hn) (Nat.pow_le_pow_right (by omega) (by omega))))

theorem opB_adderInput (a b : Int) {n : Nat} (hn : n ≤ 32) :
    opB n (asgOf (adderInput a b n)) = adderOperand n b := by
  apply uval_eq_of_getD
  intro i
  by_cases hi : i < n
  · simp [hi, (adderInput_get a b n hi).2, testBit_adderOperand b hn hi]
  · simp [hi]
    exact (Nat.testBit_lt_two_pow
      (lt_of_lt_of_le (adderOperand_lt b hn) (Nat.pow_le_pow_right (by omega) (by omega))))

theorem op_congr {n : Nat} {x y : Asg} (h : ∀ v, v < 2 * n → x v = y v) :
    opA n x = opA n y ∧ opB n x = opB n y := by
  constructor
  · unfold opA
    congr 1
    exact List.map_congr_left (fun i hi => h _ (by rw [List.mem_range] at hi; omega))
  · unfold opB
    congr 1
    exact List.map_congr_left (fun i hi => h _ (by rw [List.mem_range] at hi; omega))

theorem AdderOk.fits {n : Nat} {s : Nat → Nat} {f : List (BDD m)} (h : AdderOk n s f) :
    Fits (2 * n) f := by
  apply fits_of_uAt
  intro x y hxy
  unfold uAt
  rw [h.bits x, h.bits y, (op_congr hxy).1, (op_congr hxy).2]

theorem almostCorrectAdder2_spec (asserts : Bool) {n p : Nat} (hn : 0 < n) (hn' : n < 2 ^ 31)
    (hp : 1 ≤ p) (hp2 : p < 2 ^ 32) (hpn : asserts = true → p ≤ n) (h2 : n = 1 ∨ 2 ≤ p) :
    ∃ f : List (BDD m), almostCorrectAdder2 asserts n p = .ok f ∧
      AdderOk n (blockStart n (n / (n / p + 1)) (p / 2)) f := by
  unfold almostCorrectAdder2
  rw [if_neg (by rintro ⟨h, h'⟩; exact h' ⟨hpn h, by omega⟩), if_neg (by omega),
    downFrom_pred (by omega)]
  refine blockAdder_spec hn (fun hn2 => ⟨Nat.succ_ne_zero _, ?_⟩)
  have h3 : 2 ≤ p := by omega
  have h4 : n / p ≤ n / 2 := Nat.div_le_div_left h3 (by omega)
  have h5 : n / p + 1 ≤ n := by omega
  exact (Nat.div_pos h5 (Nat.succ_pos _)).ne'

theorem div_ne_zero' {n p : Nat} (h1 : 1 ≤ p) (h2 : p ≤ n) : p ≠ 0 ∧ n / p ≠ 0 :=
  ⟨by omega, (Nat.div_pos h2 h1).ne'⟩

theorem AdderOk.window {n : Nat} {s : Nat → Nat} {f : List (BDD m)} (h : AdderOk n s f) :
    WindowAdder n s f := by
  intro x
  refine ⟨fun i hi => h.testBit x hi, h.testBit_last x, h.exact_iff x, h.lost x, fun i hi h0 => ?_⟩
  rw [testBit_add_carry]
  rcases Nat.lt_or_eq_of_le hi with h1 | rfl
  · rw [h.testBit x h1, h0]
  · rw [h.testBit_last x, h0, Nat.testBit_lt_two_pow (opA_lt i x), Nat.testBit_lt_two_pow (opB_lt i x)]
    simp

/-! ## `generic_accuracy_reconfigurable_adder` with a wrapped sub adder length -/

theorem gearLoop_total {n res : Nat} : ∀ (k i count : Nat) (cs : List (BDD m)), i + k = n →
    cs.length = i → (cs ≠ [] ∨ (count = res ∧ i ≠ n - 1)) →
    ∃ cs', gearLoop n res 0 (input1 n) (input2 n) k i count cs = .ok cs' ∧ cs'.length = n
  | 0, i, count, cs, hk, hl, _ => ⟨cs, rfl, by omega⟩
  | k + 1, i, count, cs, hk, hl, h => by
    rw [gearLoop]
    by_cases hr : count = res ∧ i ≠ n - 1
    · rw [if_pos hr]
      exact gearLoop_total k (i + 1) _ _ (by omega) (by simp [hl]) (.inl (by simp))
    · rw [if_neg hr]
      have hne := h.resolve_right hr
      simp only [vget_input1 (show i < n by omega), vget_input2 (show i < n by omega),
        vback_ne_nil hne, bind, Except.bind]
      exact gearLoop_total k (i + 1) _ _ (by omega) (by simp [hl]) (.inl (by simp))

theorem sumLoop_total {n : Nat} (cs : List (BDD m)) (hl : cs.length = n) : ∀ (k i : Nat), i + k = n →
    ∃ out, sumLoop (input1 n) (input2 n) cs k i = .ok out
  | 0, i, _ => ⟨[], rfl⟩
  | k + 1, i, hk => by
    obtain ⟨out, h1⟩ := sumLoop_total cs hl k (i + 1) (by omega)
    simp only [sumLoop, vget_input1 (show i < n by omega), vget_input2 (show i < n by omega), h1, bind,
      Except.bind]
    by_cases hi : i = 0
    · simp only [if_pos hi]
      exact ⟨_, rfl⟩
    · simp only [if_neg hi, vget_eq cs (i - 1) .zero (by omega)]
      exact ⟨_, rfl⟩

theorem finishAdder_total {n : Nat} (hn : 0 < n) (cs : List (BDD m)) (hl : cs.length = n) :
    ∃ out, finishAdder n cs = .ok out := by
  obtain ⟨out, h⟩ := sumLoop_total cs hl n 0 (by omega)
  have hne : cs ≠ [] := by rintro rfl; simp at hl; omega
  exact ⟨out ++ [cs.getLast hne], by simp only [finishAdder, h, vback_ne_nil hne, bind, Except.bind]⟩

/-- Which parameters of `generic_accuracy_reconfigurable_adder` are well defined. -/
theorem gear_defined (n res prev : Nat) (hn : n < 2 ^ 31) (hr : res < 2 ^ 32) (hp : prev < 2 ^ 32) :
    if 1 ≤ n ∧ 1 ≤ (res + prev) % 2 ^ 32 ∧ (res + prev) % 2 ^ 32 ≤ n + 1 ∧
      (2 ≤ n ∨ 2 ≤ (res + prev) % 2 ^ 32) ∧
      (res + prev < 2 ^ 32 ∨ n ≤ (res + prev) % 2 ^ 32 ∨ 2 ^ 31 < prev) then
      ∃ f : List (BDD m), genericAccuracyReconfigurableAdder n res prev = .ok f
    else genericAccuracyReconfigurableAdder n res prev =
      (.error .ub : Except Fault (List (BDD m))) := by
  have hmod : (res + prev) % 2 ^ 32 = if res + prev < 2 ^ 32 then res + prev
      else res + prev - 2 ^ 32 := by
    split
    · exact Nat.mod_eq_of_lt ‹_›
    · omega
  split
  · rename_i h
    obtain ⟨h1, h2, h3, h4, h5⟩ := h
    by_cases hs : res + prev < 2 ^ 32
    · rw [if_pos hs] at hmod
      rw [hmod] at h2 h3 h4
      obtain ⟨f, h1, _⟩ := gear_spec (m := m) (n := n) (by omega) hn h2 h3 h4
      exact ⟨f, h1⟩
    · rw [if_neg hs] at hmod
      unfold genericAccuracyReconfigurableAdder
      dsimp only
      generalize hlen : (res + prev) % 2 ^ 32 = len at *
      rw [u32sub_eq h2 (by omega)]
      obtain ⟨cs, g1, g2, _⟩ := prefixLoop_spec (m := m) (n := n) (s := fun _ => 0)
        (len - 1) 0 [] (by omega) rfl (fun _ _ => rfl) (Carries.nil _ _)
      have key : ∃ cs', gearLoop n res (downFrom (u32sub prev 1)) (input1 n) (input2 n) (n - (len - 1))
          (len - 1) res cs = .ok cs' ∧ cs'.length = n := by
        by_cases hpv : 2 ^ 31 < prev
        · have hw : downFrom (u32sub prev 1) = 0 := by
            rw [u32sub_eq (by omega) hp, downFrom, if_neg (by omega)]
          rw [hw]
          apply gearLoop_total
          · omega
          · omega
          · rcases Nat.lt_or_ge 1 len with h | h
            · left
              rintro rfl
              simp at g2
              omega
            · right
              exact ⟨rfl, by omega⟩
        · rcases Nat.eq_or_lt_of_le h3 with h | h
          · rw [show n - (len - 1) = 0 by omega]
            exact ⟨cs, rfl, by omega⟩
          · have hle : len = n := by omega
            rw [show n - (len - 1) = 1 by omega, gearLoop, if_neg (by omega)]
            have hne : cs ≠ [] := by
              rintro rfl
              simp at g2
              omega
            simp only [vget_input1 (show len - 1 < n by omega), vget_input2 (show len - 1 < n by omega),
              vback_ne_nil hne, bind, Except.bind, gearLoop]
            exact ⟨_, rfl, by simp; omega⟩
      obtain ⟨cs', k1, k2⟩ := key
      obtain ⟨f, hf⟩ := finishAdder_total (by omega) cs' k2
      exact ⟨f, by simp only [g1, k1, hf, bind, Except.bind]⟩
  · rename_i h
    unfold genericAccuracyReconfigurableAdder
    dsimp only
    generalize hlen : (res + prev) % 2 ^ 32 = len at *
    have hlen32 : len < 2 ^ 32 := by rw [← hlen]; exact Nat.mod_lt _ (by omega)
    by_cases h1 : len = 1 ∧ n ≤ 1
    · obtain ⟨rfl, hn1⟩ := h1
      rw [show u32sub 1 1 = 0 from rfl]
      simp only [prefixLoop, bind, Except.bind]
      obtain rfl | rfl : n = 0 ∨ n = 1 := by omega
      · rfl
      · rw [gearLoop, if_neg (by omega)]
        rfl
    · by_cases hlt : n < 0 + u32sub len 1
      · rw [prefixLoop_ub _ 0 [] hlt (Nat.zero_le _) rfl]
        rfl
      · rcases Nat.eq_zero_or_pos len with h0 | hpos
        · rw [h0, u32sub_zero_one] at hlt; omega
        rw [u32sub_eq hpos hlen32] at hlt ⊢
        have hs : ¬ res + prev < 2 ^ 32 := fun hs => h ⟨by omega, by omega, by omega, by omega, .inl hs⟩
        rw [if_neg hs] at hmod
        have h5 : len < n ∧ prev ≤ 2 ^ 31 := by
          by_contra hc
          exact h ⟨by omega, by omega, by omega, by omega, .inr (by omega)⟩
        obtain ⟨cs, g1, g2, _⟩ := prefixLoop_spec (m := m) (n := n) (s := fun _ => 0)
          (len - 1) 0 [] (by omega) rfl (fun _ _ => rfl) (Carries.nil _ _)
        obtain ⟨k, hk⟩ : ∃ k, n - (len - 1) = k + 1 := ⟨n - len, by omega⟩
        rw [g1, hk, downFrom_pred h5.2]
        simp only [bind, Except.bind]
        rw [gearLoop, if_pos ⟨rfl, by omega⟩]
        obtain ⟨j, rfl⟩ : ∃ j, prev = j + 1 := ⟨prev - 1, by omega⟩
        rw [gearWindow, vget_error _ _ (by simp [input1, u32sub]; omega)]
        rfl

end Verif

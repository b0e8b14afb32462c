import Verif.Proofs.AdderWorst
import Verif.Proofs.Support
import Verif.Proofs.Average
import Verif.SpecAdder
import Mathlib.Algebra.BigOperators.Field

/-!
# The square of the error of an adder
-/

namespace Verif

variable {m : Mgr}

theorem drops_chain {a b k n : Nat} {s : Nat → Nat} (h : Starts s n) (hk : k < n) : drops a b s k = true ↔
    ∃ g, s k ≤ g ∧ g < s (k + 1) ∧ chain a b g (k + 1) = true := by
  have hle := h.le (k + 1)
  rw [drops_iff h hk, carry_iff_chain (h.mono k hk)]
  constructor
  · rintro ⟨⟨g, h2, h3, h4⟩, h5⟩
    refine ⟨g, h2, h3, ?_⟩
    rw [chain_iff] at h4 ⊢
    refine ⟨h4.1, h4.2.1, fun i h6 h7 => ?_⟩
    by_cases hi : i < s (k + 1)
    · exact h4.2.2 i h6 hi
    · exact h5 i (by omega) h7
  · rintro ⟨g, h2, h3, h4⟩
    rw [chain_iff] at h4
    refine ⟨⟨g, h2, h3, ?_⟩, fun i h6 h7 => h4.2.2 i (by omega) h7⟩
    rw [chain_iff]
    exact ⟨h4.1, h4.2.1, fun i h6 h7 => h4.2.2 i h6 (by omega)⟩

theorem laterStart_le (s : Nat → Nat) (i j : Nat) : laterStart s i j ≤ s (j + 1) := min_le_right _ _

theorem drops_both {a b i j n : Nat} {s : Nat → Nat} (h : Starts s n) (hij : i < j) (hj : j < n) :
    (drops a b s i && drops a b s j) = (drops a b s i && (carryFrom a b (laterStart s i j) (j + 1) &&
      !carryFrom a b (s (j + 1)) (j + 1))) := by
  have hm := h.mono j hj
  have hle := h.le (j + 1)
  have hij' := h.mono' (show i + 1 ≤ j by omega) (by omega)
  cases hi : drops a b s i with
  | false => rfl
  | true =>
    rw [Bool.true_and, Bool.true_and, Bool.eq_iff_iff, carry_lost_iff (laterStart_le s i j) hle,
      carry_iff_chain (laterStart_le s i j), drops_iff h hj, carry_iff_chain hm]
    refine and_congr_left fun hp => ⟨?_, ?_⟩
    · rintro ⟨g, h1, h2, h3⟩
      refine ⟨g, ?_, h2, h3⟩
      have : i + 1 ≤ g := by
        by_contra hc
        obtain ⟨g', e1, e2, e3⟩ := (drops_chain h (by omega)).mp hi
        rw [chain_iff] at e3 h3
        have hlt : g' < g := by omega
        exact e3.2.2 g hlt (by omega) (h3.1.trans h3.2.1.symm)
      unfold laterStart
      omega
    · rintro ⟨g, h1, h2, h3⟩
      refine ⟨g, ?_, h2, h3⟩
      unfold laterStart at h1
      omega

/-- A carry over bits from `t` on is independent of what lies below. -/
theorem mean_mul_carry {n t : Nat} (G : Asg → ℚ) (hG : Below t G) : ∀ {k : Nat}, t ≤ k → k ≤ n →
    mean (2 * n) (fun x => G x * ind (carryFrom (opA n x) (opB n x) t k)) =
      mean (2 * n) G * ((1 - 1 / 2 ^ (k - t)) / 2) := by
  intro k hs
  induction k, hs using Nat.le_induction with
  | base =>
    intro _
    rw [mean_congr _ (fun x => by rw [carryFrom_self, ind_false, mul_zero]), mean_const]
    simp
  | succ k hs ih =>
    intro hk
    have e : ∀ x, G x * ind (carryFrom (opA n x) (opB n x) t (k + 1)) =
        (fun a b x => G x * ind (maj a b (carryFrom (opA n x) (opB n x) t k)))
          ((opA n x).testBit k) ((opB n x).testBit k) x := fun x => by
      rw [carryFrom_succ _ _ hs]
    rw [mean_congr _ e, mean_pair (by omega) (fun a b x => G x * ind (maj a b (carryFrom (opA n x) (opB n x) t k)))
      (fun a b x v c hv => by dsimp only; rw [carry_update hs (by omega) hv, hG _ _ _ (by omega)])]
    have t1 : ∀ c, maj true true c = true := fun c => by simp [maj]
    have t2 : ∀ c, maj true false c = c := fun c => by simp [maj]
    have t3 : ∀ c, maj false true c = c := fun c => by simp [maj]
    have t4 : ∀ c, maj false false c = false := fun c => by simp [maj]
    simp only [t1, t2, t3, t4, ih (by omega), ind_true, ind_false, mean_const, mul_one, mul_zero]
    rw [show k + 1 - t = (k - t) + 1 by omega, pow_succ]
    field_simp
    ring

theorem below_drops {n i : Nat} {s : Nat → Nat} (h : Starts s n) (hi : i < n) :
    Below (i + 1) (fun x => ind (drops (opA n x) (opB n x) s i)) := fun x v b hv => by
  dsimp only
  unfold drops
  rw [carry_update (by have := h.le i; omega) (by omega) hv, carry_update (h.le _) (by omega) hv]

theorem mean_drops {n i : Nat} {s : Nat → Nat} (h : Starts s n) (hi : i < n) :
    mean (2 * n) (fun x => ind (drops (opA n x) (opB n x) s i)) =
      ((2 : ℚ) ^ s (i + 1) - 2 ^ s i) / 2 ^ (i + 2) :=
  mean_lost (h.mono i hi) (h.le _) hi

theorem ind_and (a b : Bool) : ind (a && b) = ind a * ind b := by cases a <;> cases b <;> simp

/-- How often two carries are dropped. -/
theorem mean_drops_both {n i j : Nat} {s : Nat → Nat} (h : Starts s n) (hij : i < j) (hj : j < n) :
    mean (2 * n) (fun x => ind (drops (opA n x) (opB n x) s i && drops (opA n x) (opB n x) s j)) =
      (((2 : ℚ) ^ s (i + 1) - 2 ^ s i) / 2 ^ (i + 2)) *
        (((2 : ℚ) ^ s (j + 1) - 2 ^ laterStart s i j) / 2 ^ (j + 2)) := by
  rw [mean_congr _ (fun x => by rw [drops_both h hij hj, ind_and])]
  by_cases hc : max (s j) (i + 1) < s (j + 1)
  · have ht : laterStart s i j = max (s j) (i + 1) := min_eq_left hc.le
    have hle := h.le (j + 1)
    rw [mean_congr _ (fun x => by rw [ind_lost (laterStart_le s i j) hle, mul_sub]), mean_sub,
      mean_mul_carry _ (below_mono (below_drops h (show i < n by omega)) (by rw [ht]; exact le_max_right _ _))
        (show laterStart s i j ≤ j + 1 by omega) (by omega),
      mean_mul_carry _ (below_mono (below_drops h (show i < n by omega)) (by omega)) hle (by omega),
      mean_drops h (by omega)]
    have e : ∀ l ≤ j + 1, (1 : ℚ) / 2 ^ (j + 1 - l) = 2 ^ l / 2 ^ (j + 1) := fun l hl => by
      rw [div_eq_div_iff (by positivity) (by positivity), one_mul, ← pow_add, Nat.add_sub_cancel' hl]
    rw [e _ (by omega), e _ hle, pow_succ 2 (j + 1)]
    field_simp
    ring
  · have ht : laterStart s i j = s (j + 1) := min_eq_right (by omega)
    rw [ht, mean_congr _ (fun x => by rw [Bool.and_not_self, ind_false, mul_zero]), mean_const]
    simp

theorem mean_square_drop {n : Nat} {s : Nat → Nat} (h : Starts s n) : ∀ k ≤ n,
    mean (2 * n) (fun x => (dropSum (opA n x) (opB n x) s k : ℚ) ^ 2) =
      meanSquareDrop s k := by
  unfold meanSquareDrop
  intro k
  induction k with
  | zero => intro _; simp [dropSum, mean_const]
  | succ k ih =>
    intro hk
    have e : ∀ x, (dropSum (opA n x) (opB n x) s (k + 1) : ℚ) ^ 2 = (dropSum (opA n x) (opB n x) s k : ℚ) ^ 2 +
        (4 ^ (k + 1) * ind (drops (opA n x) (opB n x) s k) +
        2 ^ (k + 2) * (dropSum (opA n x) (opB n x) s k * ind (drops (opA n x) (opB n x) s k))) := fun x => by
      rw [dropSum_succ]
      have h4 : (4 : ℚ) ^ (k + 1) = 2 ^ (k + 1) * 2 ^ (k + 1) := by rw [← mul_pow]; norm_num
      rw [h4, pow_succ 2 (k + 1)]
      push_cast
      cases drops (opA n x) (opB n x) s k <;> simp
      ring
    have e2 : ∀ l ≤ k, mean (2 * n) (fun x => (dropSum (opA n x) (opB n x) s l : ℚ) *
        ind (drops (opA n x) (opB n x) s k)) = ∑ i ∈ Finset.range l, ((2 : ℚ) ^ s (i + 1) - 2 ^ s i) / 2 *
          (((2 : ℚ) ^ s (k + 1) - 2 ^ laterStart s i k) / 2 ^ (k + 2)) := by
      intro l
      induction l with
      | zero => intro _; simp [dropSum, mean_const]
      | succ l ihl =>
        intro hl
        have e3 : ∀ x, (dropSum (opA n x) (opB n x) s (l + 1) : ℚ) * ind (drops (opA n x) (opB n x) s k) =
            (dropSum (opA n x) (opB n x) s l : ℚ) * ind (drops (opA n x) (opB n x) s k) +
            2 ^ (l + 1) * ind (drops (opA n x) (opB n x) s l && drops (opA n x) (opB n x) s k) := fun x => by
          rw [dropSum_succ, ind_and]
          push_cast
          rw [← ind_toNat]
          ring
        rw [mean_congr _ e3, mean_add, ihl (by omega), mean_mul_left, mean_drops_both h (by omega) (by omega),
          Finset.sum_range_succ, pow_succ 2 (l + 1)]
        congr 1
        field_simp
    rw [mean_congr _ e, mean_add, mean_add, mean_mul_left, mean_mul_left, ih (by omega), e2 k (le_refl k),
      mean_drops h (by omega), Finset.sum_range_succ]
    congr 1
    congr 1
    · have h4 : (4 : ℚ) ^ (k + 1) = 2 ^ (k + 2) * 2 ^ k := by rw [← pow_add, show (4 : ℚ) = 2 ^ 2 by norm_num, ← pow_mul]; congr 1; omega
      rw [h4]
      field_simp
    · rw [Finset.mul_sum]
      refine Finset.sum_congr rfl fun i _ => ?_
      field_simp

theorem uval_drops (a b : Nat) (s : Nat → Nat) (n : Nat) :
    uval (false :: (List.range n).map (fun i => drops a b s i) ++ [false]) = dropSum a b s n := by
  have h : ∀ n, uval (false :: (List.range n).map (fun i => drops a b s i)) = dropSum a b s n := by
    intro n
    induction n with
    | zero => simp [uval, dropSum]
    | succ n ih =>
      rw [List.range_succ, List.map_append, ← List.cons_append, uval_append, ih, dropSum_succ]
      simp [uval]
  rw [uval_append, h]
  simp [uval]

/-- The bits of the difference are the dropped carries. -/
theorem bits_drops {n : Nat} {s : Nat → Nat} {d : List (BDD m)} (hl : d.length = n + 2)
    (hd : ∀ x, uAt d x = dropSum (opA n x) (opB n x) s n) (x : Asg) :
    bitsAt d x = false :: (List.range n).map (fun i => drops (opA n x) (opB n x) s i) ++ [false] :=
  uval_inj (by simp [bitsAt, hl]) (by rw [uval_drops]; exact hd x)

theorem bit_drops {n : Nat} {s : Nat → Nat} {d : List (BDD m)} (hl : d.length = n + 2)
    (hd : ∀ x, uAt d x = dropSum (opA n x) (opB n x) s n) :
    (∀ b, d[0]? = some b → ∀ x, b.eval x = false) ∧
    (∀ b, d[n + 1]? = some b → ∀ x, b.eval x = false) ∧
    (∀ i < n, ∀ b, d[i + 1]? = some b → ∀ x, b.eval x = drops (opA n x) (opB n x) s i) := by
  have key : ∀ (i : Nat) (b : BDD m) (x : Asg), d[i]? = some b → (bitsAt d x)[i]? = some (b.eval x) := fun i b x h => by
    simp [bitsAt, h]
  refine ⟨fun b h x => ?_, fun b h x => ?_, fun i hi b h x => ?_⟩
  · have := key _ b x h
    rw [bits_drops hl hd] at this
    simpa using this.symm
  · have := key _ b x h
    rw [bits_drops hl hd] at this
    simpa using this.symm
  · have := key _ b x h
    rw [bits_drops hl hd] at this
    simp only [List.cons_append, List.getElem?_cons_succ] at this
    rw [List.getElem?_append_left (by simpa using hi)] at this
    simpa [hi] using this.symm

theorem drops_congr {a b a' b' k n : Nat} {s : Nat → Nat} (h : Starts s n) (hk : k < n)
    (ha : ∀ i, s k ≤ i → i ≤ k → a.testBit i = a'.testBit i)
    (hb : ∀ i, s k ≤ i → i ≤ k → b.testBit i = b'.testBit i) : drops a b s k = drops a' b' s k := by
  have hle := h.le (k + 1)
  rw [Bool.eq_iff_iff, drops_chain h hk, drops_chain h hk]
  refine exists_congr fun g => and_congr_right fun h1 => and_congr_right fun h2 => ?_
  rw [chain_iff, chain_iff, ha g h1 (by omega), hb g h1 (by omega)]
  refine and_congr Iff.rfl (and_congr Iff.rfl (forall_congr' fun i => forall_congr' fun h3 => forall_congr' fun h4 => ?_))
  rw [ha i (by omega) (by omega), hb i (by omega) (by omega)]

/-- A dropped carry depends on exactly the bits of its window. -/
theorem drops_support {n k : Nat} {s : Nat → Nat} (h : Starts s n) (hk : k < n) {b : BDD m}
    (hb : ∀ x, b.eval x = drops (opA n x) (opB n x) s k) (v : Nat) :
    v ∈ b.supportIndices ↔ s k < s (k + 1) ∧ 2 * s k ≤ v ∧ v < 2 * (k + 1) := by
  have hle := h.le (k + 1)
  have hm := h.mono k hk
  rw [BDD.mem_supportIndices]
  constructor
  · rintro ⟨x, hx⟩
    rw [hb, hb] at hx
    refine ⟨?_, ?_⟩
    · by_contra hc
      apply hx
      have hno : ∀ y, drops (opA n y) (opB n y) s k = false := fun y => by
        cases hd : drops (opA n y) (opB n y) s k with
        | false => rfl
        | true => exact absurd (drops_boundary h hk hd) hc
      rw [hno, hno]
    · by_contra hc
      apply hx
      apply drops_congr h hk
      · intro i h1 h2
        rw [opA_testBit _ (by omega), opA_testBit _ (by omega), Function.update_of_ne (by omega),
          Function.update_of_ne (by omega)]
      · intro i h1 h2
        rw [opB_testBit _ (by omega), opB_testBit _ (by omega), Function.update_of_ne (by omega),
          Function.update_of_ne (by omega)]
  · rintro ⟨h1, h2, h3⟩
    obtain ⟨j, hj⟩ : ∃ j, j = v / 2 := ⟨_, rfl⟩
    obtain ⟨g, hg⟩ : ∃ g, g = if j < s (k + 1) then j else s (k + 1) - 1 := ⟨_, rfl⟩
    have hg1 : s k ≤ g ∧ g < s (k + 1) ∧ g ≤ j ∧ (g < j → s (k + 1) ≤ j) := by
      rw [hg]; split <;> omega
    obtain ⟨x, hxdef⟩ : ∃ x, x = operandsOf (fun i => decide (g ≤ i)) (fun i => decide (i = g)) := ⟨_, rfl⟩
    have hA : ∀ i < n, (opA n x).testBit i = decide (g ≤ i) := fun i hi => by rw [hxdef, opA_operandsOf _ _ hi]
    have hB : ∀ i < n, (opB n x).testBit i = decide (i = g) := fun i hi => by rw [hxdef, opB_operandsOf _ _ hi]
    have htrue : drops (opA n x) (opB n x) s k = true := by
      rw [drops_chain h hk]
      refine ⟨g, hg1.1, hg1.2.1, ?_⟩
      rw [chain_iff, hA g (by omega), hB g (by omega)]
      refine ⟨by simp, by simp, fun i h4 h5 => ?_⟩
      rw [hA i (by omega), hB i (by omega)]
      simp only [ne_eq, decide_eq_decide]
      omega
    have hfalse : drops (opA n (Function.update x v (!x v))) (opB n (Function.update x v (!x v))) s k = false := by
      have hA' : ∀ i < n, (opA n (Function.update x v (!x v))).testBit i =
          if v = 2 * i then !decide (g ≤ i) else decide (g ≤ i) := fun i hi => by
        have := hA i hi
        rw [opA_testBit _ hi] at this ⊢
        split
        · next e => rw [e, Function.update_self, this]
        · next e => rw [Function.update_of_ne (by omega), this]
      have hB' : ∀ i < n, (opB n (Function.update x v (!x v))).testBit i =
          if v = 2 * i + 1 then !decide (i = g) else decide (i = g) := fun i hi => by
        have := hB i hi
        rw [opB_testBit _ hi] at this ⊢
        split
        · next e => rw [e, Function.update_self, this]
        · next e => rw [Function.update_of_ne (by omega), this]
      rw [← Bool.not_eq_true, drops_chain h hk]
      rintro ⟨g', e1, e2, e3⟩
      rw [chain_iff, hA' g' (by omega), hB' g' (by omega)] at e3
      obtain ⟨e4, e5, e6⟩ := e3
      have hgg : g' = g := by
        by_contra hne
        by_cases hv : v = 2 * g' + 1
        · rw [if_pos hv] at e5
          rw [if_neg (by omega)] at e4
          have := of_decide_eq_true e4
          omega
        · rw [if_neg hv] at e5
          exact hne (of_decide_eq_true e5)
      subst hgg
      by_cases hjg : g' = j
      · by_cases hv : v = 2 * g'
        · rw [if_pos hv] at e4
          simp at e4
        · rw [if_pos (by omega)] at e5
          simp at e5
      · have hj' := e6 j (by omega) (by omega)
        rw [hA' j (by omega), hB' j (by omega)] at hj'
        apply hj'
        by_cases hv : v = 2 * j
        · rw [if_pos hv, if_neg (by omega)]
          simp only [hg1.2.2.1, decide_true, Bool.not_true]
          symm
          simpa using fun e => hjg e.symm
        · rw [if_neg hv, if_pos (by omega)]
          simp only [hg1.2.2.1, decide_true]
          symm
          simpa using fun e => hjg e.symm
    refine ⟨x, ?_⟩
    rw [hb, hb]
    intro he
    cases hxv : x v with
    | true =>
      have e1 : Function.update x v true = x := by rw [← hxv, Function.update_eq_self]
      rw [hxv] at hfalse
      rw [e1, htrue] at he
      rw [Bool.not_true, ← he] at hfalse
      cases hfalse
    | false =>
      have e1 : Function.update x v false = x := by rw [← hxv, Function.update_eq_self]
      rw [hxv] at hfalse
      rw [e1, htrue] at he
      rw [Bool.not_false, he] at hfalse
      cases hfalse

theorem supportSize_interval {b : BDD m} {lo hi : Nat} (h : ∀ v, v ∈ b.supportIndices ↔ lo ≤ v ∧ v < hi) :
    b.supportSize = hi - lo := by
  unfold BDD.supportSize
  rw [← List.dedup_eq_self.mpr (show b.supportIndices.Nodup from List.nodup_dedup _), ← List.card_toFinset]
  have : b.supportIndices.toFinset = Finset.Ico lo hi := by
    ext v
    simp [h]
  rw [this, Nat.card_Ico]

theorem drops_supportSize {n k : Nat} {s : Nat → Nat} (h : Starts s n) (hk : k < n) {b : BDD m}
    (hb : ∀ x, b.eval x = drops (opA n x) (opB n x) s k) :
    b.supportSize = 2 * if s k < s (k + 1) then k + 1 - s k else 0 := by
  by_cases hc : s k < s (k + 1)
  · rw [if_pos hc, supportSize_interval (lo := 2 * s k) (hi := 2 * (k + 1)) (fun v => by
      rw [drops_support h hk hb]
      exact ⟨fun h => h.2, fun h => ⟨hc, h⟩⟩)]
    omega
  · rw [if_neg hc, supportSize_interval (lo := 0) (hi := 0) (fun v => by
      rw [drops_support h hk hb]
      exact ⟨fun h => absurd h.1 hc, fun h => by omega⟩)]

theorem constant_supportSize {b : BDD m} (hb : ∀ x, b.eval x = false) : b.supportSize = 0 := by
  rw [supportSize_interval (lo := 0) (hi := 0) (fun v => by
    rw [BDD.mem_supportIndices]
    exact ⟨fun ⟨x, hx⟩ => absurd (by rw [hb, hb]) hx, fun h => by omega⟩)]

/-- A difference of powers of two over a power of two is whole iff the smaller power is large enough. -/
theorem whole_iff {u v t w e W : Nat} (h1 : v < u) (h2 : t < w) :
    (∃ k : Nat, (((2 : ℚ) ^ u - 2 ^ v) * (2 ^ w - 2 ^ t)) / 2 ^ e * 2 ^ W = k) ↔ e ≤ v + t + W := by
  have hodd : ∃ o : Nat, o % 2 = 1 ∧ ((2 : ℚ) ^ u - 2 ^ v) * (2 ^ w - 2 ^ t) = o * 2 ^ (v + t) := by
    obtain ⟨p, rfl⟩ : ∃ p, u = v + (p + 1) := ⟨u - v - 1, by omega⟩
    obtain ⟨q, rfl⟩ : ∃ q, w = t + (q + 1) := ⟨w - t - 1, by omega⟩
    refine ⟨(2 ^ (p + 1) - 1) * (2 ^ (q + 1) - 1), ?_, ?_⟩
    · have e1 : ∀ r, (2 ^ (r + 1) - 1) % 2 = 1 := fun r => by
        have := Nat.one_le_two_pow (n := r)
        rw [pow_succ]
        omega
      rw [Nat.mul_mod, e1, e1]
    · have e1 : ∀ r : Nat, ((2 ^ (r + 1) - 1 : Nat) : ℚ) = 2 ^ (r + 1) - 1 := fun r => by
        rw [Nat.cast_sub Nat.one_le_two_pow]; simp
      rw [Nat.cast_mul, e1, e1]
      ring
  obtain ⟨o, ho, heq⟩ := hodd
  rw [heq]
  constructor
  · rintro ⟨k, hk⟩
    by_contra hc
    obtain ⟨r, rfl⟩ : ∃ r, e = v + t + W + (r + 1) := ⟨e - (v + t + W) - 1, by omega⟩
    have e2 : (o : ℚ) * 2 ^ (v + t) / 2 ^ (v + t + W + (r + 1)) * 2 ^ W = o / 2 ^ (r + 1) := by
      rw [pow_add _ (v + t + W), pow_add _ (v + t)]
      field_simp
    rw [e2, div_eq_iff (by positivity)] at hk
    have e3 : o = k * 2 ^ (r + 1) := by exact_mod_cast hk
    rw [e3, pow_succ, ← mul_assoc, Nat.mul_mod_left] at ho
    cases ho
  · intro hle
    obtain ⟨r, hr⟩ : ∃ r, v + t + W = e + r := ⟨v + t + W - e, by omega⟩
    refine ⟨o * 2 ^ r, ?_⟩
    have e2 : (2 : ℚ) ^ (v + t) * 2 ^ W = 2 ^ e * 2 ^ r := by rw [← pow_add, ← pow_add, hr]
    push_cast
    rw [div_mul_eq_mul_div, div_eq_iff (by positivity), mul_assoc, e2]
    ring

/-- `Σ_i 2^i c(a_i, b)`. -/
def crossSum {α : Type} [CommSemiring α] (c : BDD m → BDD m → α) (b : BDD m) : List (BDD m) → α
  | [] => 0
  | a :: as => c a b + 2 * crossSum c b as

theorem innerSum_append {α : Type} [CommSemiring α] (c : BDD m → BDD m → α) (a b : BDD m) : ∀ l : List (BDD m),
    innerSum c a (l ++ [b]) = innerSum c a l + 2 ^ l.length * c a b
  | [] => by simp [innerSum]
  | x :: l => by
    rw [List.cons_append, innerSum, innerSum, innerSum_append c a b l, List.length_cons]
    ring

theorem crossSum_append {α : Type} [CommSemiring α] (c : BDD m → BDD m → α) (a b : BDD m) : ∀ l : List (BDD m),
    crossSum c b (l ++ [a]) = crossSum c b l + 2 ^ l.length * c a b
  | [] => by simp [crossSum]
  | x :: l => by
    rw [List.cons_append, crossSum, crossSum, crossSum_append c a b l, List.length_cons]
    ring

theorem sqSum_append {α : Type} [CommSemiring α] (c : BDD m → BDD m → α) (b : BDD m) : ∀ l : List (BDD m),
    sqSum c (l ++ [b]) = sqSum c l + (4 ^ l.length * c b b + 2 ^ (l.length + 1) * crossSum c b l)
  | [] => by simp [sqSum, innerSum, crossSum]
  | x :: l => by
    rw [List.cons_append, sqSum, sqSum, sqSum_append c b l, innerSum_append, crossSum, List.length_cons]
    ring

theorem crossSum_map {α : Type} [CommSemiring α] (c : BDD m → BDD m → α) (b : BDD m) (F : Nat → BDD m) : ∀ k,
    crossSum c b ((List.range k).map F) = ∑ i ∈ Finset.range k, 2 ^ i * c (F i) b
  | 0 => by simp [crossSum]
  | k + 1 => by
    rw [List.range_succ, List.map_append, List.map_singleton, crossSum_append, crossSum_map c b F k,
      Finset.sum_range_succ, List.length_map, List.length_range]

theorem sqSum_map {α : Type} [CommSemiring α] (c : BDD m → BDD m → α) (F : Nat → BDD m) : ∀ k,
    sqSum c ((List.range k).map F) = ∑ j ∈ Finset.range k,
      (4 ^ j * c (F j) (F j) + 2 ^ (j + 1) * ∑ i ∈ Finset.range j, 2 ^ i * c (F i) (F j))
  | 0 => by simp [sqSum]
  | k + 1 => by
    rw [List.range_succ, List.map_append, List.map_singleton, sqSum_append, sqSum_map c F k,
      Finset.sum_range_succ, List.length_map, List.length_range, crossSum_map]

theorem truncCount_zero (n : Nat) {a b : BDD m} (h : ∀ x, (a.eval x && b.eval x) = false) : truncCount n a b = 0 := by
  have : a.and b = .zero := BDD.ext_eval (fun x => by rw [BDD.eval_and, h x, BDD.eval_zero])
  rw [truncCount, this]
  have e : (BDD.zero : BDD m).countMinterm n = 0 := by
    rw [BDD.countMinterm, BDD.frac_eq_mean 0 _ (by
      intro v hv
      rw [BDD.mem_supportIndices] at hv
      obtain ⟨x, hx⟩ := hv
      simp at hx)]
    simp [mean_const]
  rw [e]
  simp

theorem truncCount_mean (W N : Nat) {a b : BDD m} (ha : ∀ v ∈ a.supportIndices, v < N)
    (hb : ∀ v ∈ b.supportIndices, v < N) :
    ((truncCount W a b : Nat) : ℚ) = ⌊mean N (fun x => ind (a.eval x && b.eval x)) * 2 ^ W⌋ := by
  have h0 : (0 : ℤ) ≤ ⌊(a.and b).countMinterm W⌋ :=
    Int.floor_nonneg.mpr (mul_nonneg (frac_bounds (a.and b).wf).1 (by positivity))
  have e : ((truncCount W a b : Nat) : ℤ) = ⌊(a.and b).countMinterm W⌋ := Int.toNat_of_nonneg h0
  have e' : ((truncCount W a b : Nat) : ℚ) = ((⌊(a.and b).countMinterm W⌋ : ℤ) : ℚ) := by exact_mod_cast e
  rw [e', BDD.countMinterm]
  change ((⌊bothFrac a b * 2 ^ W⌋ : ℤ) : ℚ) = _
  rw [bothFrac_eq_mean N a b ha hb, mean_congr N (fun x => ind_and (a.eval x) (b.eval x))]

/-- The largest number of variables of a bit of the difference. -/
theorem maxSupport_drops {n : Nat} {s : Nat → Nat} (h : Starts s n) {d : List (BDD m)} (hl : d.length = n + 2)
    (hd : ∀ x, uAt d x = dropSum (opA n x) (opB n x) s n) : maxSupportSize d = 2 * widestWindow s n := by
  obtain ⟨h1, h2, h3⟩ := bit_drops hl hd
  have hw : ∀ k < n, (if s k < s (k + 1) then k + 1 - s k else 0) ≤ widestWindow s n := fun k hk =>
    Finset.le_sup (f := fun k => if s k < s (k + 1) then k + 1 - s k else 0) (Finset.mem_range.mpr hk)
  apply le_antisymm
  · apply maxSupportSize_le
    intro b hb
    obtain ⟨i, hi, hib⟩ := List.mem_iff_getElem.mp hb
    have hi' : d[i]? = some b := by rw [← hib]; exact List.getElem?_eq_getElem hi
    rcases Nat.eq_zero_or_pos i with rfl | hpos
    · rw [constant_supportSize (h1 b hi')]; omega
    · obtain ⟨k, rfl⟩ : ∃ k, i = k + 1 := ⟨i - 1, by omega⟩
      by_cases hk : k = n
      · subst hk
        rw [constant_supportSize (h2 b hi')]; omega
      · have hk' : k < n := by omega
        rw [drops_supportSize h hk' (h3 k hk' b hi')]
        have := hw k hk'
        omega
  · have : ∀ k < n, 2 * (if s k < s (k + 1) then k + 1 - s k else 0) ≤ maxSupportSize d := fun k hk => by
      have hk1 : k + 1 < d.length := by omega
      rw [← drops_supportSize h hk (h3 k hk d[k + 1] (List.getElem?_eq_getElem hk1))]
      exact supportSize_le_max (List.getElem_mem hk1)
    have hs : widestWindow s n ≤ maxSupportSize d / 2 := Finset.sup_le fun k hk => by
      have := this k (Finset.mem_range.mp hk)
      omega
    omega

theorem truncCount_self (W N : Nat) {a : BDD m} (ha : ∀ v ∈ a.supportIndices, v < N) (hW : a.supportSize ≤ W) :
    ((truncCount W a a : Nat) : ℚ) = mean N (fun x => ind (a.eval x)) * 2 ^ W := by
  have haa : a.and a = a := BDD.ext_eval (fun x => by simp)
  obtain ⟨k, hk, _⟩ := a.countMinterm_int W hW
  rw [(truncCount_le W a a).2.mpr ⟨k, by rw [bothFrac, haa]; exact hk⟩, bothFrac_eq_mean N a a ha ha]
  congr 1
  exact mean_congr N fun x => by cases a.eval x <;> simp

theorem pairs_drops {n : Nat} {s : Nat → Nat} (h : Starts s n) {d : List (BDD m)} (hl : d.length = n + 2)
    (hd : ∀ x, uAt d x = dropSum (opA n x) (opB n x) s n) (hfit : Fits (2 * n) d) :
    ((sqSum (truncCount (maxSupportSize d)) d : Nat) : ℚ) / 2 ^ maxSupportSize d = countedSquareDrop s n := by
  obtain ⟨h1, h2, h3⟩ := bit_drops hl hd
  obtain ⟨F, hF⟩ : ∃ F : Nat → BDD m, F = fun i => d.getD i .zero := ⟨_, rfl⟩
  have hFi : ∀ i < n + 2, d[i]? = some (F i) := fun i hi => by
    rw [hF, List.getElem?_eq_getElem (by omega)]
    dsimp only
    rw [List.getD_eq_getElem _ _ (by omega)]
  have hmem : ∀ i < n + 2, F i ∈ d := fun i hi => List.mem_of_getElem? (hFi i hi)
  have hdF : d = (List.range (n + 2)).map F := by
    apply List.ext_getElem?
    intro i
    by_cases hi : i < n + 2
    · rw [hFi i hi]; simp [hi]
    · rw [List.getElem?_eq_none (by omega), List.getElem?_eq_none (by simp; omega)]
  have hmax := maxSupport_drops h hl hd
  obtain ⟨W, hW⟩ : ∃ W, W = maxSupportSize d := ⟨_, rfl⟩
  rw [countedSquareDrop, ← hmax, ← hW]
  conv_lhs => rw [hdF, sqSum_map]
  have z1 : ∀ x, (F 0).eval x = false := h1 _ (hFi 0 (by omega))
  have z2 : ∀ x, (F (n + 1)).eval x = false := h2 _ (hFi (n + 1) (by omega))
  have z3 : ∀ i < n, ∀ x, (F (i + 1)).eval x = drops (opA n x) (opB n x) s i := fun i hi =>
    h3 i hi _ (hFi (i + 1) (by omega))
  rw [Finset.sum_range_succ, Finset.sum_range_succ']
  rw [truncCount_zero W (a := F (n + 1)) (b := F (n + 1)) (fun x => by rw [z2]; rfl),
    truncCount_zero W (a := F 0) (b := F 0) (fun x => by rw [z1]; rfl),
    Finset.sum_eq_zero (s := Finset.range (n + 1)) (fun i _ => by
      rw [truncCount_zero W (b := F (n + 1)) (fun x => by rw [z2, Bool.and_false]), Nat.mul_zero])]
  simp only [Finset.range_zero, Finset.sum_empty, Nat.mul_zero, Nat.add_zero]
  rw [Nat.cast_sum, Finset.sum_div]
  refine Finset.sum_congr rfl fun j hj => ?_
  have hj := Finset.mem_range.mp hj
  have hp : (0 : ℚ) < 2 ^ W := by positivity
  rw [Finset.sum_range_succ', truncCount_zero W (a := F 0) (fun x => by rw [z1, Bool.false_and]), Nat.mul_zero, Nat.add_zero]
  push_cast
  rw [truncCount_self W (2 * n) (hfit _ (hmem _ (by omega))) (hW ▸ supportSize_le_max (hmem _ (by omega))),
    mean_congr _ (fun x => by rw [z3 j hj]), mean_drops h hj, add_div]
  congr 1
  · have h4 : (4 : ℚ) ^ (j + 1) = 2 ^ (j + 2) * 2 ^ j := by rw [← pow_add, show (4 : ℚ) = 2 ^ 2 by norm_num, ← pow_mul]; congr 1; omega
    rw [h4]
    field_simp
  · rw [add_zero, Finset.mul_sum, Finset.sum_div]
    refine Finset.sum_congr rfl fun i hi => ?_
    have hi := Finset.mem_range.mp hi
    rw [truncCount_mean W (2 * n) (hfit _ (hmem _ (by omega))) (hfit _ (hmem _ (by omega))),
      mean_congr _ (fun x => by rw [z3 j hj, z3 i (by omega)]), mean_drops_both h hi hj]
    have e : ∀ A B : ℚ, A / 2 ^ (i + 2) * (B / 2 ^ (j + 2)) = A * B / 2 ^ (i + j + 4) := fun A B => by
      rw [div_mul_div_comm, ← pow_add]
      congr 2
      omega
    rw [e]
    congr 1
    rw [← mul_assoc, ← pow_add]
    congr 2
    omega

/-- Rounding the numbers of inputs down only lowers the mean square. -/
theorem counted_le (s : Nat → Nat) (n : Nat) : countedSquareDrop s n ≤ meanSquareDrop s n ∧
    (countedSquareDrop s n = meanSquareDrop s n ↔ ∀ j < n, ∀ i < j, ∃ k : ℤ,
      ((2 : ℚ) ^ s (i + 1) - 2 ^ s i) * (2 ^ s (j + 1) - 2 ^ laterStart s i j) / 2 ^ (i + j + 4) *
        2 ^ (2 * widestWindow s n) = k) := by
  obtain ⟨W, hW⟩ : ∃ W, W = 2 * widestWindow s n := ⟨_, rfl⟩
  have hp : (0 : ℚ) < 2 ^ W := by positivity
  have key : ∀ i j : Nat, ∀ X : ℚ, (2 : ℚ) ^ (i + j + 3) * ⌊X / 2 ^ (i + j + 4) * 2 ^ W⌋ / 2 ^ W ≤ X / 2 ∧
      ((2 : ℚ) ^ (i + j + 3) * ⌊X / 2 ^ (i + j + 4) * 2 ^ W⌋ / 2 ^ W = X / 2 ↔
        ∃ k : ℤ, X / 2 ^ (i + j + 4) * 2 ^ W = k) := fun i j X => by
    have e : X / 2 = (2 : ℚ) ^ (i + j + 3) * (X / 2 ^ (i + j + 4) * 2 ^ W) / 2 ^ W := by
      rw [pow_succ 2 (i + j + 3)]
      field_simp
    have hq : (0 : ℚ) < 2 ^ (i + j + 3) := by positivity
    refine ⟨?_, ?_⟩
    · rw [e]
      exact div_le_div_of_nonneg_right (mul_le_mul_of_nonneg_left (Int.floor_le _) hq.le) hp.le
    · rw [e, div_left_inj' hp.ne', mul_right_inj' hq.ne']
      exact ⟨fun h => ⟨_, h.symm⟩, fun ⟨k, hk⟩ => by rw [hk, Int.floor_intCast]⟩
  unfold countedSquareDrop meanSquareDrop
  rw [← hW]
  have inner : ∀ j, (∑ i ∈ Finset.range j, (2 : ℚ) ^ (i + j + 3) *
      ⌊((2 : ℚ) ^ s (i + 1) - 2 ^ s i) * (2 ^ s (j + 1) - 2 ^ laterStart s i j) / 2 ^ (i + j + 4) * 2 ^ W⌋ / 2 ^ W) ≤
      ∑ i ∈ Finset.range j, ((2 : ℚ) ^ s (i + 1) - 2 ^ s i) * (2 ^ s (j + 1) - 2 ^ laterStart s i j) / 2 := fun j =>
    Finset.sum_le_sum fun i _ => (key i j _).1
  refine ⟨Finset.sum_le_sum fun j _ => add_le_add le_rfl (inner j), ?_⟩
  rw [Finset.sum_eq_sum_iff_of_le (fun j _ => add_le_add le_rfl (inner j))]
  refine forall_congr' fun j => ?_
  rw [Finset.mem_range]
  refine forall_congr' fun _ => ?_
  rw [add_right_inj, Finset.sum_eq_sum_iff_of_le (fun i _ => (key i j _).1)]
  refine forall_congr' fun i => ?_
  rw [Finset.mem_range]
  exact forall_congr' fun _ => (key i j _).2

theorem whole_pair {s : Nat → Nat} {n i j W : Nat} (h : Starts s n) (hij : i < j) (hj : j < n) :
    (∃ k : ℤ, ((2 : ℚ) ^ s (i + 1) - 2 ^ s i) * (2 ^ s (j + 1) - 2 ^ laterStart s i j) / 2 ^ (i + j + 4) * 2 ^ W = k) ↔
      (s i < s (i + 1) → max (s j) (i + 1) < s (j + 1) → i + j + 4 ≤ s i + max (s j) (i + 1) + W) := by
  have hm := h.mono i (by omega)
  by_cases h1 : s i < s (i + 1)
  · by_cases h2 : max (s j) (i + 1) < s (j + 1)
    · have ht : laterStart s i j = max (s j) (i + 1) := min_eq_left h2.le
      rw [ht]
      simp only [h1, h2, true_imp_iff]
      rw [← whole_iff h1 h2]
      constructor
      · rintro ⟨k, hk⟩
        have hnn : (0 : ℚ) ≤ k := by
          rw [← hk]
          have e1 : (2 : ℚ) ^ s i ≤ 2 ^ s (i + 1) := pow_le_pow_right₀ (by norm_num) h1.le
          have e2 : (2 : ℚ) ^ max (s j) (i + 1) ≤ 2 ^ s (j + 1) := pow_le_pow_right₀ (by norm_num) h2.le
          exact mul_nonneg (div_nonneg (mul_nonneg (sub_nonneg.mpr e1) (sub_nonneg.mpr e2)) (by positivity)) (by positivity)
        have hk0 : 0 ≤ k := by exact_mod_cast hnn
        obtain ⟨l, rfl⟩ := Int.eq_ofNat_of_zero_le hk0
        exact ⟨l, by rw [hk]; simp⟩
      · rintro ⟨k, hk⟩
        exact ⟨k, by rw [hk]; simp⟩
    · have ht : laterStart s i j = s (j + 1) := min_eq_right (by omega)
      exact iff_of_true ⟨0, by rw [ht]; simp⟩ (fun _ h => absurd h h2)
  · have e : s (i + 1) = s i := by omega
    exact iff_of_true ⟨0, by rw [e]; simp⟩ (fun h => absurd h h1)

end Verif

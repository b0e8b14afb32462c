import Verif.Proofs.Max
import Verif.Proofs.Nodes

/-!
# Lemmas on `average_value` and `mean_squared_value`
-/

namespace Verif

/-- The number of satisfying assignments over at least the support is a natural number. -/
theorem DD.frac_int {m : Mgr} {d : DD} (hwf : d.WF m) : ∀ N, d.vars.dedup.length ≤ N →
    ∃ k : Nat, d.frac * 2 ^ N = k ∧ k ≤ 2 ^ N := by
  induction d with
  | one => exact fun N _ => ⟨2 ^ N, by simp [DD.frac], le_rfl⟩
  | node v t c e iht ihe =>
    intro N hN
    obtain ⟨ht, he, htb, heb, _⟩ := hwf
    have vt : v ∉ t.vars := htb.notMem ht
    have ve : v ∉ e.vars := heb.notMem he
    have key : ∀ l : List Nat, v ∉ l → (∀ w ∈ l, w ∈ t.vars ++ e.vars) →
        l.dedup.length + 1 ≤ N := by
      intro l hv hl
      refine le_trans ?_ hN
      rw [← List.card_toFinset, ← List.card_toFinset, ← Finset.card_insert_of_notMem (a := v) (by simpa)]
      apply Finset.card_le_card
      intro w hw
      simp only [DD.vars, List.toFinset_cons, Finset.mem_insert, List.mem_toFinset] at hw ⊢
      rcases hw with h | h
      · exact .inl h
      · exact .inr (hl w h)
    have h1 := key t.vars vt (fun w hw => by simp [hw])
    have h2 := key e.vars ve (fun w hw => by simp [hw])
    obtain ⟨k1, hk1, hb1⟩ := iht ht (N - 1) (by omega)
    obtain ⟨k2, hk2, hb2⟩ := ihe he (N - 1) (by omega)
    obtain ⟨M, rfl⟩ : ∃ M, N = M + 1 := ⟨N - 1, by omega⟩
    rw [Nat.add_sub_cancel] at hk1 hk2 hb1 hb2
    simp only [DD.frac, pow_succ]
    cases c
    · refine ⟨k1 + k2, ?_, by omega⟩
      push_cast
      rw [← hk1, ← hk2]
      ring
    · refine ⟨k1 + (2 ^ M - k2), ?_, by omega⟩
      push_cast [hb2]
      rw [← hk1, ← hk2]
      simp only [if_true]
      ring

variable {m : Mgr}

theorem BDD.countMinterm_int (f : BDD m) (N : Nat) (h : f.supportSize ≤ N) :
    ∃ k : Nat, f.countMinterm N = k ∧ k ≤ 2 ^ N := by
  obtain ⟨k, hk, hb⟩ := DD.frac_int f.wf N h
  unfold BDD.countMinterm Edge.frac
  split
  · refine ⟨2 ^ N - k, ?_, by omega⟩
    push_cast [hb]
    rw [← hk]; ring
  · exact ⟨k, hk, hb⟩

theorem supportSize_le_of_fits {f : BDD m} {N : Nat} (h : ∀ v ∈ f.supportIndices, v < N) :
    f.supportSize ≤ N := by
  unfold BDD.supportSize
  rw [← List.dedup_eq_self.mpr (show f.supportIndices.Nodup from List.nodup_dedup _),
    ← List.card_toFinset]
  calc f.supportIndices.toFinset.card ≤ (Finset.range N).card :=
        Finset.card_le_card (fun v hv => by simpa using h v (by simpa using hv))
    _ = N := Finset.card_range N

theorem foldl_max_supportSize (f : List (BDD m)) (a : Nat) :
    a ≤ f.foldl (fun a b => max a b.supportSize) a ∧
    (∀ b ∈ f, b.supportSize ≤ f.foldl (fun a b => max a b.supportSize) a) ∧
    ∀ n, a ≤ n → (∀ b ∈ f, b.supportSize ≤ n) → f.foldl (fun a b => max a b.supportSize) a ≤ n := by
  induction f generalizing a with
  | nil => simp
  | cons b f ih =>
    obtain ⟨h1, h2, h3⟩ := ih (max a b.supportSize)
    simp only [List.foldl_cons]
    refine ⟨by omega, ?_, fun n ha hn => h3 n (max_le ha (hn b (by simp))) (fun c hc => hn c (by simp [hc]))⟩
    intro c hc
    rcases List.mem_cons.mp hc with rfl | hc
    · omega
    · exact h2 c hc

theorem supportSize_le_max {f : List (BDD m)} {b : BDD m} (h : b ∈ f) :
    b.supportSize ≤ maxSupportSize f := (foldl_max_supportSize f 0).2.1 b h

theorem maxSupportSize_le {f : List (BDD m)} {n : Nat} (h : ∀ b ∈ f, b.supportSize ≤ n) :
    maxSupportSize f ≤ n := (foldl_max_supportSize f 0).2.2 n (Nat.zero_le _) h

theorem u256_add_mul (s a b : Nat) : u256 (s + u256 (u256 a * u256 b)) = u256 (s + a * b) := by
  unfold u256
  simp [Nat.add_mod, Nat.mul_mod]

theorem u256_lt (a : Nat) : u256 a < 2 ^ 256 := Nat.mod_lt _ (by norm_num)

theorem u256_u256 (a : Nat) : u256 (u256 a) = u256 a := by simp [u256]

theorem mean_uAt_nil (N : Nat) : mean N (fun x => (uAt ([] : List (BDD m)) x : ℚ)) = 0 := by
  simp [mean_const]

theorem mean_uAt_cons (N : Nat) (b : BDD m) (bs : List (BDD m)) (h : ∀ v ∈ b.supportIndices, v < N) :
    mean N (fun x => (uAt (b :: bs) x : ℚ)) = b.edge.frac + 2 * mean N (fun x => (uAt bs x : ℚ)) := by
  rw [BDD.frac_eq_mean N b h, ← mean_mul_left, ← mean_add]
  apply mean_congr
  intro x
  rw [uAt_cons, ind_toNat]
  push_cast
  ring

theorem avgLoop_spec (n N : Nat) : ∀ (bs : List (BDD m)) (i sum : Nat), Fits N bs →
    (∀ b ∈ bs, b.supportSize ≤ n) → sum < 2 ^ 256 →
    ∃ S : Nat, avgLoop n i bs sum = u256 (sum + S) ∧
      (S : ℚ) = 2 ^ i * (mean N (fun x => (uAt bs x : ℚ)) * 2 ^ n)
  | [], i, sum, _, _, hs => ⟨0, by
      rw [avgLoop, Nat.add_zero]; exact (Nat.mod_eq_of_lt hs).symm, by rw [mean_uAt_nil]; simp⟩
  | b :: bs, i, sum, hf, hn, hs => by
      obtain ⟨k, hk, hb⟩ := b.countMinterm_int n (hn b (by simp))
      have e : toU256 (b.countMinterm n) = u256 k := by
        rw [toU256, hk, Int.floor_natCast, Int.toNat_natCast]
      obtain ⟨S, h1, h2⟩ := avgLoop_spec n N bs (i + 1) (u256 (sum + 2 ^ i * k))
        (fun c hc => hf c (by simp [hc])) (fun c hc => hn c (by simp [hc])) (u256_lt _)
      refine ⟨2 ^ i * k + S, ?_, ?_⟩
      · rw [avgLoop, e, u256_add_mul, h1]
        unfold u256
        simp [Nat.add_assoc]
      · push_cast
        rw [h2, mean_uAt_cons N b bs (hf b (by simp)), ← hk, BDD.countMinterm, pow_succ]
        ring

theorem mean_uAt_lt (N : Nat) (f : List (BDD m)) :
    mean N (fun x => (uAt f x : ℚ)) ≤ 2 ^ f.length - 1 := by
  have := mean_mono N (g := fun x => (uAt f x : ℚ)) (h := fun _ => 2 ^ f.length - 1) (fun x => by
    have := uAt_lt f x
    have h2 : uAt f x + 1 ≤ 2 ^ f.length := this
    have h3 : ((uAt f x + 1 : Nat) : ℚ) ≤ ((2 ^ f.length : Nat) : ℚ) := by exact_mod_cast h2
    push_cast at h3
    linarith)
  rwa [mean_const] at this

theorem averageValue_spec (f : List (BDD m)) (n N : Nat) (hN : Fits N f)
    (hn : ∀ b ∈ f, b.supportSize ≤ n) (hlen : f.length + n ≤ 256) :
    averageValue f = .ok (mean N (fun x => (uAt f x : ℚ))) := by
  have hle : maxSupportSize f ≤ n := maxSupportSize_le hn
  set n' := maxSupportSize f with hn'
  obtain ⟨S, h1, h2⟩ := avgLoop_spec n' N f 0 0 hN (fun b hb => supportSize_le_max hb) (by norm_num)
  rw [pow_zero, one_mul] at h2
  have h256 : n' < 256 := by
    cases f with
    | nil => simp [hn', maxSupportSize]
    | cons b bs => simp only [List.length_cons] at hlen; omega
  have hS : S < 2 ^ 256 := by
    have hp : (0 : ℚ) < 2 ^ n' := by positivity
    have : (S : ℚ) < 2 ^ f.length * 2 ^ n' := by
      rw [h2]
      apply mul_lt_mul_of_pos_right _ hp
      have := mean_uAt_lt N f
      linarith
    have h3 : S < 2 ^ f.length * 2 ^ n' := by exact_mod_cast this
    calc S < 2 ^ (f.length + n') := by rw [pow_add]; exact h3
      _ ≤ 2 ^ 256 := Nat.pow_le_pow_right (by norm_num) (by omega)
  rw [averageValue, ← hn', h1, Nat.zero_add]
  have e1 : u256 S = S := Nat.mod_eq_of_lt hS
  have e2 : u256 (2 ^ n') = 2 ^ n' := Nat.mod_eq_of_lt (Nat.pow_lt_pow_right (by norm_num) h256)
  rw [e1, e2, fdiv, if_neg (by positivity), h2]
  congr 1
  push_cast
  field_simp

/-! ## Squares -/

/-- `Σ_j 2^j c(a, b_j)`. -/
def innerSum {α : Type} [CommSemiring α] (c : BDD m → BDD m → α) (a : BDD m) : List (BDD m) → α
  | [] => 0
  | b :: bs => c a b + 2 * innerSum c a bs

/-- The factored square, `Σ_{i≤j} …`. -/
def sqSum {α : Type} [CommSemiring α] (c : BDD m → BDD m → α) : List (BDD m) → α
  | [] => 0
  | a :: rest => c a a + 4 * innerSum c a rest + 4 * sqSum c rest

/-- The truncated count used by the code. -/
def truncCount (n : Nat) (a b : BDD m) : Nat := ⌊(a.and b).countMinterm n⌋.toNat

theorem sqInner_spec (n i : Nat) (a : BDD m) : ∀ (bs : List (BDD m)) (j sum : Nat), i < j →
    sum < 2 ^ 256 → sqInner n i a j bs sum = u256 (sum + 2 * (2 ^ i * 2 ^ j) * innerSum (truncCount n) a bs)
  | [], j, sum, _, hs => by
      rw [sqInner, innerSum, Nat.mul_zero, Nat.add_zero]; exact (Nat.mod_eq_of_lt hs).symm
  | b :: bs, j, sum, hij, hs => by
      rw [sqInner]
      simp only [show ¬ i = j by omega, if_false]
      rw [sqInner_spec n i a bs (j + 1) _ (by omega) (u256_lt _), innerSum]
      change u256 (u256 (sum + u256 (u256 (u256 (u256 (2 ^ i) * u256 (2 ^ j)) *
        u256 (truncCount n a b)) * 2)) + _) = _
      unfold u256
      rw [pow_succ 2 j]
      generalize (2 : Nat) ^ 256 = W
      generalize 2 ^ i = p
      generalize 2 ^ j = q
      generalize truncCount n a b = t
      generalize innerSum (truncCount n) a bs = u
      have e : sum + 2 * (p * q) * (t + 2 * u) = sum + p * q * t * 2 + 2 * (p * (q * 2)) * u := by ring
      rw [e]
      simp only [Nat.add_mod, Nat.mul_mod, Nat.mod_mod]

theorem sqLoop_spec (n : Nat) : ∀ (f : List (BDD m)) (i sum : Nat), sum < 2 ^ 256 →
    sqLoop n i f sum = u256 (sum + 4 ^ i * sqSum (truncCount n) f)
  | [], i, sum, hs => by
      rw [sqLoop, sqSum, Nat.mul_zero, Nat.add_zero]; exact (Nat.mod_eq_of_lt hs).symm
  | a :: rest, i, sum, hs => by
      rw [sqLoop, sqInner]
      simp only [if_true]
      rw [sqInner_spec n i a rest (i + 1) _ (by omega) (u256_lt _),
        sqLoop_spec n rest (i + 1) _ (u256_lt _), sqSum]
      change u256 (u256 (u256 (sum + u256 (u256 (u256 (u256 (2 ^ i) * u256 (2 ^ i)) *
        u256 (truncCount n a a)) * 1)) + _) + _) = _
      have h4 : 4 ^ i = 2 ^ i * 2 ^ i := by rw [← mul_pow]; norm_num
      unfold u256
      rw [pow_succ 2 i, pow_succ 4 i, h4]
      generalize (2 : Nat) ^ 256 = W
      generalize 2 ^ i = p
      generalize truncCount n a a = t
      generalize innerSum (truncCount n) a rest = u
      generalize sqSum (truncCount n) rest = v
      have e : sum + p * p * (t + 4 * u + 4 * v)
          = sum + p * p * t * 1 + 2 * (p * (p * 2)) * u + p * p * 4 * v := by ring
      rw [e]
      simp only [Nat.add_mod, Nat.mul_mod, Nat.mod_mod]

/-- Fraction of inputs on which both bits are set. -/
def bothFrac (a b : BDD m) : ℚ := (a.and b).edge.frac

theorem fits_and {N : Nat} {a b : BDD m} (ha : ∀ v ∈ a.supportIndices, v < N)
    (hb : ∀ v ∈ b.supportIndices, v < N) : ∀ v ∈ (a.and b).supportIndices, v < N := by
  intro v hv
  rw [BDD.mem_supportIndices] at hv
  obtain ⟨x, hx⟩ := hv
  by_contra h
  apply hx
  have e : ∀ c : BDD m, (∀ v ∈ c.supportIndices, v < N) →
      c.eval (Function.update x v true) = c.eval (Function.update x v false) := fun c hc => by
    apply BDD.eval_congr
    intro w hw
    have : w ≠ v := fun e => h (e ▸ hc w hw)
    simp [Function.update, this]
  rw [BDD.eval_and, BDD.eval_and, e a ha, e b hb]

theorem bothFrac_eq_mean (N : Nat) (a b : BDD m) (ha : ∀ v ∈ a.supportIndices, v < N)
    (hb : ∀ v ∈ b.supportIndices, v < N) :
    bothFrac a b = mean N (fun x => ind (a.eval x) * ind (b.eval x)) := by
  rw [bothFrac, BDD.frac_eq_mean N _ (fits_and ha hb)]
  apply mean_congr
  intro x
  rw [BDD.eval_and]
  cases a.eval x <;> cases b.eval x <;> simp

theorem innerSum_mean (N : Nat) (a : BDD m) (ha : ∀ v ∈ a.supportIndices, v < N) :
    ∀ (bs : List (BDD m)), Fits N bs →
      innerSum bothFrac a bs = mean N (fun x => ind (a.eval x) * (uAt bs x : ℚ))
  | [], _ => by simp [innerSum, mean_const]
  | b :: bs, h => by
      rw [innerSum, innerSum_mean N a ha bs (fun c hc => h c (by simp [hc])),
        bothFrac_eq_mean N a b ha (h b (by simp)), ← mean_mul_left, ← mean_add]
      apply mean_congr
      intro x
      rw [uAt_cons, ind_toNat (b.eval x)]
      push_cast
      ring

theorem sqSum_mean (N : Nat) : ∀ (f : List (BDD m)), Fits N f →
    sqSum bothFrac f = mean N (fun x => (uAt f x : ℚ) ^ 2)
  | [], _ => by simp [sqSum, mean_const]
  | a :: rest, h => by
      rw [sqSum, sqSum_mean N rest (fun c hc => h c (by simp [hc])),
        innerSum_mean N a (h a (by simp)) rest (fun c hc => h c (by simp [hc])),
        bothFrac_eq_mean N a a (h a (by simp)) (h a (by simp)), ← mean_mul_left, ← mean_mul_left,
        ← mean_add, ← mean_add]
      apply mean_congr
      intro x
      rw [uAt_cons]
      push_cast
      rw [← ind_toNat]
      ring

theorem truncCount_le (n : Nat) (a b : BDD m) : (truncCount n a b : ℚ) ≤ bothFrac a b * 2 ^ n ∧
    ((truncCount n a b : ℚ) = bothFrac a b * 2 ^ n ↔ ∃ k : Nat, bothFrac a b * 2 ^ n = k) := by
  have h0 : 0 ≤ bothFrac a b * 2 ^ n :=
    mul_nonneg (frac_bounds (a.and b).wf).1 (by positivity)
  have e : ((⌊(a.and b).countMinterm n⌋.toNat : Nat) : ℚ) = (⌊(a.and b).countMinterm n⌋ : ℚ) := by
    have : (0 : ℤ) ≤ ⌊(a.and b).countMinterm n⌋ := Int.floor_nonneg.mpr h0
    have h2 := Int.toNat_of_nonneg this
    exact_mod_cast h2
  rw [truncCount, e]
  refine ⟨Int.floor_le _, fun h => ⟨truncCount n a b, ?_⟩, ?_⟩
  · rw [truncCount, e, h]
  · rintro ⟨k, hk⟩
    rw [BDD.countMinterm]
    change ((⌊bothFrac a b * 2 ^ n⌋ : ℤ) : ℚ) = _
    rw [hk]; simp

theorem truncCount_gt (n : Nat) (a b : BDD m) : bothFrac a b * 2 ^ n - (truncCount n a b : ℚ) ≤ 1 := by
  have h0 : 0 ≤ bothFrac a b * 2 ^ n :=
    mul_nonneg (frac_bounds (a.and b).wf).1 (by positivity)
  have h1 : (⌊bothFrac a b * 2 ^ n⌋ : ℚ) ≤ (truncCount n a b : ℚ) := by
    have : ⌊bothFrac a b * 2 ^ n⌋ ≤ ((truncCount n a b : Nat) : ℤ) := Int.self_le_toNat _
    exact_mod_cast this
  have := Int.lt_floor_add_one (bothFrac a b * 2 ^ n)
  linarith

theorem innerSum_trunc (n : Nat) (a : BDD m) : ∀ bs : List (BDD m),
    ((innerSum (truncCount n) a bs : Nat) : ℚ) ≤ innerSum bothFrac a bs * 2 ^ n ∧
    (((innerSum (truncCount n) a bs : Nat) : ℚ) = innerSum bothFrac a bs * 2 ^ n ↔
      ∀ b ∈ bs, ∃ k : Nat, bothFrac a b * 2 ^ n = k)
  | [] => by simp [innerSum]
  | b :: bs => by
      obtain ⟨h1, h2⟩ := innerSum_trunc n a bs
      obtain ⟨h3, h4⟩ := truncCount_le n a b
      simp only [innerSum, List.forall_mem_cons, ← h2, ← h4]
      push_cast
      refine ⟨by linarith, fun h => ⟨by linarith, by linarith⟩, fun ⟨ha, hb⟩ => by linarith⟩

theorem sqSum_trunc (n : Nat) : ∀ f : List (BDD m), (∀ b ∈ f, b.supportSize ≤ n) →
    ((sqSum (truncCount n) f : Nat) : ℚ) ≤ sqSum bothFrac f * 2 ^ n ∧
    (((sqSum (truncCount n) f : Nat) : ℚ) = sqSum bothFrac f * 2 ^ n ↔
      f.Pairwise (fun a b => ∃ k : Nat, bothFrac a b * 2 ^ n = k))
  | [], _ => by simp [sqSum]
  | a :: rest, hn => by
      obtain ⟨h1, h2⟩ := sqSum_trunc n rest (fun b hb => hn b (by simp [hb]))
      obtain ⟨h3, h4⟩ := innerSum_trunc n a rest
      have haa : a.and a = a := BDD.ext_eval (fun x => by simp)
      obtain ⟨k, hk, _⟩ := a.countMinterm_int n (hn a (by simp))
      have h5 := (truncCount_le n a a).2.mpr ⟨k, by rw [bothFrac, haa]; exact hk⟩
      simp only [sqSum, List.pairwise_cons, ← h2, ← h4]
      push_cast
      refine ⟨by linarith, fun h => ⟨by linarith, by linarith⟩, fun ⟨ha, hb⟩ => by linarith⟩

theorem meanSquaredValue_exact (f : List (BDD m)) (hlen : 2 * f.length + maxSupportSize f ≤ 256)
    (h256 : maxSupportSize f < 256) :
    meanSquaredValue f = .ok (((sqSum (truncCount (maxSupportSize f)) f : Nat) : ℚ) / 2 ^ maxSupportSize f) := by
  obtain ⟨N, hN⟩ : ∃ N, Fits N f := exists_fits f
  obtain ⟨n, hmax⟩ : ∃ n, maxSupportSize f = n := ⟨_, rfl⟩
  obtain ⟨h1, h2⟩ := sqSum_trunc n f (fun b hb => hmax ▸ supportSize_le_max hb)
  rw [hmax] at hlen h256 ⊢
  set S := sqSum (truncCount n) f with hS
  have hp : (0 : ℚ) < 2 ^ n := by positivity
  have hlt : S < 2 ^ 256 := by
    have hm : sqSum bothFrac f ≤ (2 ^ f.length - 1) ^ 2 := by
      rw [sqSum_mean N f hN]
      have := mean_mono N (g := fun x => (uAt f x : ℚ) ^ 2) (h := fun _ => (2 ^ f.length - 1) ^ 2)
        (fun x => by
          have h2 : uAt f x + 1 ≤ 2 ^ f.length := uAt_lt f x
          have h3 : ((uAt f x + 1 : Nat) : ℚ) ≤ ((2 ^ f.length : Nat) : ℚ) := by exact_mod_cast h2
          push_cast at h3
          have h4 : (0 : ℚ) ≤ uAt f x := by positivity
          exact pow_le_pow_left₀ h4 (by linarith) 2)
      rwa [mean_const] at this
    have h3 : (S : ℚ) < 2 ^ (2 * f.length) * 2 ^ n := by
      refine lt_of_le_of_lt h1 (mul_lt_mul_of_pos_right (lt_of_le_of_lt hm ?_) hp)
      rw [mul_comm, pow_mul]
      have : (1 : ℚ) ≤ 2 ^ f.length := one_le_pow₀ (by norm_num)
      nlinarith
    have h4 : S < 2 ^ (2 * f.length) * 2 ^ n := by exact_mod_cast h3
    calc S < 2 ^ (2 * f.length + n) := by rw [pow_add]; exact h4
      _ ≤ 2 ^ 256 := Nat.pow_le_pow_right (by norm_num) hlen
  rw [meanSquaredValue, hmax, sqLoop_spec n f 0 0 (by norm_num), pow_zero, one_mul, Nat.zero_add, ← hS]
  have e1 : u256 S = S := Nat.mod_eq_of_lt hlt
  have e2 : u256 (2 ^ n) = 2 ^ n := Nat.mod_eq_of_lt (Nat.pow_lt_pow_right (by norm_num) h256)
  rw [e1, e2, fdiv, if_neg (by positivity)]
  push_cast
  rfl

theorem meanSquaredValue_spec (f : List (BDD m)) (n N : Nat) (hN : Fits N f)
    (hn : ∀ b ∈ f, b.supportSize ≤ n) (hn' : n = 0 ∨ ∃ b ∈ f, b.supportSize = n)
    (hlen : 2 * f.length + n ≤ 256) :
    ∃ q, meanSquaredValue f = .ok q ∧ q ≤ mean N (fun x => (uAt f x : ℚ) ^ 2) ∧
      (q = mean N (fun x => (uAt f x : ℚ) ^ 2) ↔
        f.Pairwise (fun a b => ∃ k : Nat,
          mean N (fun x => if a.eval x = true ∧ b.eval x = true then 1 else 0) * 2 ^ n = k)) := by
  have hmax : maxSupportSize f = n := by
    apply le_antisymm (maxSupportSize_le hn)
    rcases hn' with rfl | ⟨b, hb, rfl⟩
    · exact Nat.zero_le _
    · exact supportSize_le_max hb
  have hpw : f.Pairwise (fun a b => ∃ k : Nat,
        mean N (fun x => if a.eval x = true ∧ b.eval x = true then 1 else 0) * 2 ^ n = k) ↔
      f.Pairwise (fun a b => ∃ k : Nat, bothFrac a b * 2 ^ n = k) := by
    apply List.Pairwise.iff_of_mem
    intro a b ha hb
    rw [bothFrac_eq_mean N a b (hN a ha) (hN b hb)]
    have : mean N (fun x => ind (a.eval x) * ind (b.eval x)) =
        mean N (fun x => if a.eval x = true ∧ b.eval x = true then 1 else 0) :=
      mean_congr N (fun x => by cases a.eval x <;> cases b.eval x <;> simp)
    rw [this]
  obtain ⟨h1, h2⟩ := sqSum_trunc n f hn
  rw [hpw, ← h2, ← sqSum_mean N f hN]
  have hp : (0 : ℚ) < 2 ^ n := by positivity
  have h256 : n < 256 := by
    rcases hn' with rfl | ⟨b, hb, _⟩
    · norm_num
    · have := List.length_pos_of_mem hb
      omega
  refine ⟨_, meanSquaredValue_exact f (by rw [hmax]; exact hlen) (by rw [hmax]; exact h256), ?_, ?_⟩
  · rw [hmax, div_le_iff₀ hp]; exact h1
  · rw [hmax, div_eq_iff hp.ne']

/-- Sum of the squares of the bits. -/
def diagSum {α : Type} [CommSemiring α] (c : BDD m → BDD m → α) : List (BDD m) → α
  | [] => 0
  | a :: rest => c a a + 4 * diagSum c rest

theorem innerSum_cut (n : Nat) (a : BDD m) : ∀ bs : List (BDD m),
    innerSum bothFrac a bs * 2 ^ n - ((innerSum (truncCount n) a bs : Nat) : ℚ) ≤ 2 ^ bs.length - 1
  | [] => by simp [innerSum]
  | b :: bs => by
      have h1 := innerSum_cut n a bs
      have h3 := truncCount_gt n a b
      simp only [innerSum, List.length_cons, pow_succ]
      push_cast
      linarith

theorem sqSum_cut (n : Nat) : ∀ f : List (BDD m), (∀ b ∈ f, b.supportSize ≤ n) →
    sqSum bothFrac f * 2 ^ n - ((sqSum (truncCount n) f : Nat) : ℚ) ≤
      2 * (2 ^ f.length - 1) * (2 ^ f.length - 2) / 3
  | [], _ => by simp [sqSum]
  | a :: rest, hn => by
      have h1 := sqSum_cut n rest (fun b hb => hn b (by simp [hb]))
      have h3 := innerSum_cut n a rest
      have haa : a.and a = a := BDD.ext_eval (fun x => by simp)
      obtain ⟨k, hk, _⟩ := a.countMinterm_int n (hn a (by simp))
      have h5 := (truncCount_le n a a).2.mpr ⟨k, by rw [bothFrac, haa]; exact hk⟩
      have e : 2 * ((2 : ℚ) ^ (rest.length + 1) - 1) * (2 ^ (rest.length + 1) - 2) / 3 =
          4 * (2 ^ rest.length - 1) + 4 * (2 * (2 ^ rest.length - 1) * (2 ^ rest.length - 2) / 3) := by
        rw [pow_succ]
        ring
      simp only [sqSum, List.length_cons]
      push_cast
      rw [e]
      linarith

theorem diagSum_trunc (n : Nat) : ∀ f : List (BDD m), (∀ b ∈ f, b.supportSize ≤ n) →
    diagSum bothFrac f * 2 ^ n ≤ ((sqSum (truncCount n) f : Nat) : ℚ)
  | [], _ => by simp [sqSum, diagSum]
  | a :: rest, hn => by
      have h1 := diagSum_trunc n rest (fun b hb => hn b (by simp [hb]))
      have haa : a.and a = a := BDD.ext_eval (fun x => by simp)
      obtain ⟨k, hk, _⟩ := a.countMinterm_int n (hn a (by simp))
      have h5 := (truncCount_le n a a).2.mpr ⟨k, by rw [bothFrac, haa]; exact hk⟩
      have h6 : (0 : ℚ) ≤ (innerSum (truncCount n) a rest : Nat) := Nat.cast_nonneg _
      simp only [sqSum, diagSum]
      push_cast
      linarith

theorem diagSum_mean (N : Nat) : ∀ f : List (BDD m), Fits N f →
    mean N (fun x => (uAt f x : ℚ) ^ 2 + 2 * (uAt f x : ℚ)) ≤ 3 * diagSum bothFrac f
  | [], _ => by simp [diagSum, mean_const]
  | a :: rest, h => by
      have h1 := diagSum_mean N rest (fun c hc => h c (by simp [hc]))
      rw [diagSum, bothFrac_eq_mean N a a (h a (by simp)) (h a (by simp))]
      have h2 : mean N (fun x => (uAt (a :: rest) x : ℚ) ^ 2 + 2 * (uAt (a :: rest) x : ℚ)) ≤
          mean N (fun x => 3 * (ind (a.eval x) * ind (a.eval x)) +
            4 * ((uAt rest x : ℚ) ^ 2 + 2 * (uAt rest x : ℚ))) := by
        apply mean_mono
        intro x
        rw [uAt_cons]
        push_cast
        rw [← ind_toNat]
        have h0 : (0 : ℚ) ≤ uAt rest x := Nat.cast_nonneg _
        cases a.eval x
        · simp only [ind_false]
          nlinarith
        · simp only [ind_true]
          nlinarith
      refine h2.trans ?_
      rw [mean_add, mean_mul_left, mean_mul_left]
      linarith

/-- How far the truncation can move the result. -/
theorem meanSquaredValue_bounds (f : List (BDD m)) (n N : Nat) (hN : Fits N f)
    (hn : ∀ b ∈ f, b.supportSize ≤ n) (hn' : n = 0 ∨ ∃ b ∈ f, b.supportSize = n)
    (hlen : 2 * f.length + n ≤ 256) (q : ℚ) (hq : meanSquaredValue f = .ok q) :
    mean N (fun x => (uAt f x : ℚ) ^ 2 + 2 * (uAt f x : ℚ)) ≤ 3 * q ∧
      mean N (fun x => (uAt f x : ℚ) ^ 2) ≤ q + 2 * (2 ^ f.length - 1) * (2 ^ f.length - 2) / (3 * 2 ^ n) := by
  have hmax : maxSupportSize f = n := by
    apply le_antisymm (maxSupportSize_le hn)
    rcases hn' with rfl | ⟨b, hb, rfl⟩
    · exact Nat.zero_le _
    · exact supportSize_le_max hb
  have h256 : n < 256 := by
    rcases hn' with rfl | ⟨b, hb, _⟩
    · norm_num
    · have := List.length_pos_of_mem hb
      omega
  have hp : (0 : ℚ) < 2 ^ n := by positivity
  have he := meanSquaredValue_exact f (by rw [hmax]; exact hlen) (by rw [hmax]; exact h256)
  rw [hq, hmax] at he
  have he' := Except.ok.inj he
  have h1 := diagSum_trunc n f hn
  have h2 := diagSum_mean N f hN
  have h3 := sqSum_cut n f hn
  rw [sqSum_mean N f hN] at h3
  constructor
  · have : diagSum bothFrac f ≤ q := by rw [he', le_div_iff₀ hp]; exact h1
    linarith
  · have e : q + 2 * (2 ^ f.length - 1) * (2 ^ f.length - 2) / (3 * 2 ^ n) =
        (((sqSum (truncCount n) f : Nat) : ℚ) + 2 * (2 ^ f.length - 1) * (2 ^ f.length - 2) / 3) / 2 ^ n := by
      rw [he']
      field_simp
    rw [e, le_div_iff₀ hp]
    linarith

/-! ### Independent bits -/

theorem bothFrac_var_self (v : Nat) : bothFrac (BDD.var v : BDD m) (.var v) = 1 / 2 := by
  have hs : ∀ w ∈ (BDD.var v : BDD m).supportIndices, w < v + 1 := by
    intro w hw
    rw [BDD.mem_supportIndices] at hw
    obtain ⟨x, hx⟩ := hw
    by_contra h
    apply hx
    have : v ≠ w := by omega
    simp [BDD.eval_var, this]
  rw [bothFrac_eq_mean (v + 1) _ _ hs hs, mean_split _ _ v (by omega)]
  simp [BDD.eval_var, mean_const]

theorem bothFrac_var {v w : Nat} (h : v ≠ w) : bothFrac (BDD.var v : BDD m) (.var w) = 1 / 4 := by
  have hs : ∀ u, u ≤ max v w → ∀ i ∈ (BDD.var u : BDD m).supportIndices, i < max v w + 1 := by
    intro u hu i hi
    rw [BDD.mem_supportIndices] at hi
    obtain ⟨x, hx⟩ := hi
    by_contra h
    apply hx
    have : u ≠ i := by omega
    simp [BDD.eval_var, this]
  rw [bothFrac_eq_mean (max v w + 1) _ _ (hs v (le_max_left _ _)) (hs w (le_max_right _ _)),
    mean_split _ _ v (by omega)]
  simp only [BDD.eval_var, Function.update_self, Function.update_of_ne (Ne.symm h), ind_true, ind_false, one_mul,
    zero_mul, mean_const]
  rw [mean_split _ _ w (by omega)]
  simp only [Function.update_self, ind_true, ind_false, mean_const]
  norm_num

theorem innerSum_vars (v : Nat) : ∀ l : List Nat, v ∉ l →
    innerSum bothFrac (BDD.var v : BDD m) (l.map BDD.var) = (2 ^ l.length - 1) / 4 ∧
      innerSum (truncCount 1) (BDD.var v : BDD m) (l.map BDD.var) = 0
  | [], _ => by simp [innerSum]
  | w :: l, h => by
      obtain ⟨h1, h2⟩ := innerSum_vars v l (fun hv => h (by simp [hv]))
      have hne : v ≠ w := fun e => h (by simp [e])
      have ht : truncCount 1 (BDD.var v : BDD m) (.var w) = 0 := by
        have h3 := (truncCount_le 1 (BDD.var v : BDD m) (.var w)).1
        rw [bothFrac_var hne] at h3
        by_contra hc
        have : (1 : ℚ) ≤ truncCount 1 (BDD.var v : BDD m) (.var w) := by
          exact_mod_cast Nat.one_le_iff_ne_zero.mpr hc
        norm_num at h3
        linarith
      simp only [List.map_cons, innerSum, h1, h2, ht, bothFrac_var hne, List.length_cons, pow_succ]
      refine ⟨by ring, rfl⟩

theorem sqSum_vars : ∀ l : List Nat, l.Nodup →
    sqSum bothFrac (l.map (BDD.var : Nat → BDD m)) = (2 ^ l.length - 1) * (2 ^ (l.length + 1) - 1) / 6 ∧
      ((sqSum (truncCount 1) (l.map (BDD.var : Nat → BDD m)) : Nat) : ℚ) = (4 ^ l.length - 1) / 3
  | [], _ => by simp [sqSum]
  | v :: l, h => by
      rw [List.nodup_cons] at h
      obtain ⟨h1, h2⟩ := sqSum_vars l h.2
      obtain ⟨h3, h4⟩ := innerSum_vars (m := m) v l h.1
      have ht : (truncCount 1 (BDD.var v : BDD m) (.var v) : ℚ) = 1 := by
        rw [(truncCount_le 1 (BDD.var v : BDD m) (.var v)).2.mpr ⟨1, by rw [bothFrac_var_self]; norm_num⟩,
          bothFrac_var_self]
        norm_num
      constructor
      · simp only [List.map_cons, sqSum, h1, h3, bothFrac_var_self, List.length_cons, pow_succ]
        ring
      · simp only [List.map_cons, sqSum, h4, List.length_cons, pow_succ]
        push_cast
        rw [h2, ht]
        ring

/-- A vector whose value depends only on the first `N` variables. -/
theorem fits_of_uAt {d : List (BDD m)} {N : Nat}
    (h : ∀ x y : Asg, (∀ v, v < N → x v = y v) → uAt d x = uAt d y) : Fits N d := by
  intro b hb v hv
  rw [BDD.mem_supportIndices] at hv
  obtain ⟨x, hx⟩ := hv
  by_contra hc
  apply hx
  have h1 := h (Function.update x v true) (Function.update x v false) (fun w hw => by
    have : w ≠ v := by omega
    simp [Function.update, this])
  have h2 : bitsAt d (Function.update x v true) = bitsAt d (Function.update x v false) :=
    uval_inj (by simp) h1
  obtain ⟨i, hi, rfl⟩ := List.mem_iff_getElem.mp hb
  have := congrArg (fun l => l[i]?) h2
  simpa [bitsAt, hi] using this

theorem bitsAt_agree {f : List (BDD m)} {N : Nat} (h : Fits N f) {x y : Asg}
    (hxy : ∀ v, v < N → x v = y v) : bitsAt f x = bitsAt f y := by
  unfold bitsAt
  exact List.map_congr_left (fun b hb => BDD.eval_congr (fun v hv => hxy v (h b hb v hv)))

/-- The bits of a vector that encodes a function of the values of `f` and `g` only mention the
variables of `f` and `g`. -/
theorem fits_derived {f g d : List (BDD m)} {N : Nat} (hf : Fits N f) (hg : Fits N g)
    (F : List Bool → List Bool → Int) (hd : ∀ x, (uAt d x : Int) = F (bitsAt f x) (bitsAt g x)) :
    Fits N d := by
  apply fits_of_uAt
  intro x y hxy
  have := hd x
  rw [bitsAt_agree hf hxy, bitsAt_agree hg hxy, ← hd y] at this
  exact_mod_cast this

end Verif

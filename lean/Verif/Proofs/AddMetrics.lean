import Verif.Proofs.Paths
import Verif.Proofs.ErrorRate

/-!
# Metrics computed from the terminal values of an ADD
-/

namespace Verif

variable {m : Mgr}

theorem AD.depends {d : AD} (hwf : d.WF m) {v : Nat} (hv : v ∈ d.vars) :
    ∃ x, d.eval (Function.update x v true) ≠ d.eval (Function.update x v false) := by
  induction d with
  | const => simp [AD.vars] at hv
  | node w t e iht ihe =>
    obtain ⟨ht, he, htb, heb, hr⟩ := hwf
    by_cases hvw : v = w
    · subst hvw
      by_contra hcon
      push Not at hcon
      exact hr (AD.eq_of_eval _ _ ht he (fun x => by
        have := hcon x
        simpa [AD.eval, htb.eval_update ht, heb.eval_update he] using this))
    · simp only [AD.vars, List.mem_cons, List.mem_append, hvw, false_or] at hv
      have hne : w ≠ v := fun h => hvw h.symm
      rcases hv with hv | hv
      · obtain ⟨x, hx⟩ := iht ht hv
        refine ⟨Function.update x w true, ?_⟩
        rw [Function.update_comm hne, Function.update_comm hne]
        simpa [AD.eval, htb.eval_update ht] using hx
      · obtain ⟨x, hx⟩ := ihe he hv
        refine ⟨Function.update x w false, ?_⟩
        rw [Function.update_comm hne, Function.update_comm hne]
        simpa [AD.eval, heb.eval_update he] using hx

theorem ADD.vars_lt {N : Nat} {a : ADD m}
    (h : ∀ x y : Asg, (∀ v, v < N → x v = y v) → a.eval x = a.eval y) : ∀ v ∈ a.d.vars, v < N := by
  intro v hv
  obtain ⟨x, hx⟩ := AD.depends a.wf hv
  by_contra hc
  apply hx
  apply h
  intro w hw
  have : w ≠ v := by omega
  simp [Function.update, this]

theorem termLevel_le {N : Nat} {a : ADD m} (h : ∀ v ∈ a.d.vars, v < N) : termLevel a ≤ max N 1 := by
  unfold termLevel ADD.supportIndices
  have : ∀ (l : List Nat) (s : Nat), s ≤ N - 1 → (∀ v ∈ l, v < N) → l.foldl max s ≤ N - 1 := by
    intro l
    induction l with
    | nil => intro s hs _; simpa using hs
    | cons b bs ih =>
      intro s hs hl
      rw [List.foldl_cons]
      apply ih
      · have := hl b (by simp); omega
      · exact fun v hv => hl v (by simp [hv])
  have := this a.d.vars.dedup 0 (by omega) (fun v hv => h v (by simpa using hv))
  omega

/-- Mean of a function of the terminal value, by recursion. -/
def AD.exp (g : ℚ → ℚ) : AD → ℚ
  | .const q => g q
  | .node _ t e => (t.exp g + e.exp g) / 2

theorem AD.exp_eq_mean (g : ℚ → ℚ) (N : Nat) : {d : AD} → d.WF m → (∀ v ∈ d.vars, v < N) →
    d.exp g = mean N (fun x => g (d.eval x))
  | .const p, _, _ => by simp [AD.exp, AD.eval, mean_const]
  | .node v t e, hwf, hv => by
      obtain ⟨ht, he, htb, heb, _⟩ := hwf
      simp only [AD.vars, List.mem_cons, List.mem_append] at hv
      have i1 := AD.exp_eq_mean g N ht (fun w hw => hv w (.inr (.inl hw)))
      have i2 := AD.exp_eq_mean g N he (fun w hw => hv w (.inr (.inr hw)))
      rw [mean_split N _ v (hv v (.inl rfl)), AD.exp, i1, i2]
      congr 2
      · exact mean_congr N (fun x => by simp [AD.eval, htb.eval_update ht])
      · exact mean_congr N (fun x => by simp [AD.eval, heb.eval_update he])

theorem mean_sum_list (N : Nat) (l : List (ℚ × Nat)) (g : ℚ × Nat → Asg → ℚ) :
    (l.map fun p => mean N (g p)).sum = mean N (fun x => (l.map fun p => g p x).sum) :=
  (mean_sum N l g).symm

theorem sum_single (g : ℚ → ℚ) (v : ℚ) : ∀ (l : List (ℚ × Nat)), (l.map Prod.fst).Nodup →
    v ∈ l.map Prod.fst → (l.map (fun p => g p.1 * ind (decide (v = p.1)))).sum = g v
  | [], _, h => by simp at h
  | p :: ps, hnd, h => by
      rw [List.map_cons, List.nodup_cons] at hnd
      rw [List.map_cons, List.sum_cons]
      by_cases hp : v = p.1
      · have : (ps.map (fun p => g p.1 * ind (decide (v = p.1)))).sum = 0 := by
          apply List.sum_eq_zero
          intro z hz
          obtain ⟨p', hp', rfl⟩ := List.mem_map.mp hz
          have : v ≠ p'.1 := fun h' => hnd.1 (hp ▸ h' ▸ List.mem_map_of_mem hp')
          simp [this]
        rw [this, hp]
        simp
      · have hm : v ∈ ps.map Prod.fst := by
          rw [List.map_cons, List.mem_cons] at h
          exact h.resolve_left hp
        rw [sum_single g v ps hnd.2 hm]
        simp [hp]

/-- No undefined behaviour if the order is the index order. -/
theorem addTerminalValues_ok (hm : m.Mono) (a : ADD m) {N : Nat} (hv : ∀ v ∈ a.d.vars, v < N)
    (hN : N ≤ 64) : ∃ l, addTerminalValues a = .ok l := by
  by_cases hc : ∃ q, a.d = .const q
  · obtain ⟨q, hq⟩ := hc
    exact ⟨_, addTerminalValues_const a hq⟩
  · have hroot : ∃ v t e, a.d = .node v t e := by
      cases h : a.d with
      | const q => exact absurd ⟨q, h⟩ hc
      | node v t e => exact ⟨v, t, e, rfl⟩
    have hL := termLevel_le hv
    obtain ⟨l, hl, _⟩ := addTerminalValues_spec a
      (AD.ord_of_mono hm a.wf (lt_termLevel a)).ord0 (by omega) hroot
    exact ⟨l, hl⟩

/-- Everything the metrics need about `add_terminal_values`: the values, and weighted sums as means. -/
theorem terminalValues_mean (a : ADD m) {N : Nat} (hv : ∀ v ∈ a.d.vars, v < N) (hN : N ≤ 64)
    {l : List (ℚ × Nat)} (hl : addTerminalValues a = .ok l) :
    ∃ W : Nat, l ≠ [] ∧ (∀ q, q ∈ l.map Prod.fst ↔ ∃ x, a.eval x = q) ∧
      0 < W ∧ (W ≤ 2 ^ N) ∧ (l.map Prod.snd).sum = W ∧
      ∀ g : ℚ → ℚ, (l.map (fun p => g p.1 * p.2)).sum = W * mean N (fun x => g (a.eval x)) := by
  by_cases hc : ∃ q, a.d = .const q
  · obtain ⟨q, hq⟩ := hc
    have he : ∀ x, a.eval x = q := fun x => by rw [ADD.eval, hq]; rfl
    rw [addTerminalValues_const a hq] at hl
    cases hl
    refine ⟨1, by simp, fun p => ?_, one_pos, Nat.one_le_two_pow, by simp, fun g => ?_⟩
    · simp only [List.map_cons, List.map_nil, List.mem_singleton]
      constructor
      · rintro rfl; exact ⟨fun _ => false, he _⟩
      · rintro ⟨x, hx⟩; rw [← hx, he]
    · simp [he, mean_const]
  · have hroot : ∃ v t e, a.d = .node v t e := by
      cases h : a.d with
      | const q => exact absurd ⟨q, h⟩ hc
      | node v t e => exact ⟨v, t, e, rfl⟩
    have hL : termLevel a ≤ N := by
      have h1 := termLevel_le hv
      obtain ⟨v, t, e, h⟩ := hroot
      have := hv v (by simp [h, AD.vars])
      omega
    obtain ⟨l', hl', hnd, hval, hcnt⟩ := addTerminalValues_spec a
      (ord0_of_addTerminalValues hl) (hL.trans hN) hroot
    rw [hl] at hl'
    cases hl'
    have hsum : ∀ g : ℚ → ℚ, (l.map (fun p => g p.1 * p.2)).sum
        = 2 ^ termLevel a * mean N (fun x => g (a.eval x)) := by
      intro g
      have h1 : l.map (fun p => g p.1 * (p.2 : ℚ)) = l.map (fun p => 2 ^ termLevel a *
          mean (termLevel a) (fun x => g p.1 * ind (decide (a.eval x = p.1)))) := by
        apply List.map_congr_left
        intro p hp
        rw [hcnt p hp, mean_mul_left, mean_ind_count]
        field_simp
      rw [h1, List.sum_map_mul_left, mean_sum_list]
      congr 1
      have h2 : mean (termLevel a) (fun x => (l.map fun p => g p.1 * ind (decide (a.eval x = p.1))).sum)
          = mean (termLevel a) (fun x => g (a.d.eval x)) :=
        mean_congr _ (fun x => sum_single g (a.eval x) l hnd ((hval _).mpr ⟨x, rfl⟩))
      rw [h2, ← AD.exp_eq_mean g _ a.wf (lt_termLevel a), AD.exp_eq_mean g N a.wf hv]
      rfl
    refine ⟨2 ^ termLevel a, ?_, hval, by positivity, Nat.pow_le_pow_right (by norm_num) hL, ?_, ?_⟩
    · rintro rfl
      have := (hval (a.eval (fun _ => false))).mpr ⟨_, rfl⟩
      simp at this
    · have := hsum (fun _ => 1)
      simp only [one_mul, mean_const, mul_one] at this
      have h3 : ((l.map Prod.snd).sum : ℚ) = (l.map (fun p => (p.2 : ℚ))).sum := by
        rw [Nat.cast_list_sum, List.map_map]; rfl
      rw [← h3] at this
      exact_mod_cast this
    · intro g
      rw [hsum g]
      push_cast
      rfl

/-! ## Conversion of BDD vectors -/

theorem forestLoop_spec : ∀ (l : List (BDD m)) (r p : ADD m) (x : Asg),
    (forestLoop l r p).1.eval x = r.eval x * 2 ^ l.length + (uAt l.reverse x : ℚ) ∧
    (forestLoop l r p).2.eval x = p.eval x * 2 ^ l.length
  | [], r, p, x => by simp [forestLoop]
  | b :: bs, r, p, x => by
      obtain ⟨h1, h2⟩ := forestLoop_spec bs ((r.mul (.const 2)).add (.ofBDD b)) (p.mul (.const 2)) x
      rw [forestLoop]
      constructor
      · rw [h1, List.reverse_cons, uAt_append]
        simp only [ADD.eval_add, ADD.eval_mul, ADD.eval_const, ADD.eval_ofBDD, List.length_cons, uAt_cons,
          uAt_nil, List.length_reverse]
        cases b.eval x <;> simp <;> ring
      · rw [h2]
        simp only [ADD.eval_mul, ADD.eval_const, List.length_cons]
        ring

theorem bddForestToAdd_spec (r : NumRep) (f : List (BDD m)) (h : r = .twosComplement → f ≠ []) :
    ∃ a, bddForestToAdd r f = .ok a ∧ ∀ x, a.eval x = (valAt r f x : ℚ) := by
  cases r with
  | baseTwo =>
    refine ⟨_, by simp only [bddForestToAdd, withSignBit, List.reverse_append, List.reverse_cons,
      List.reverse_nil, List.nil_append, List.singleton_append]; rfl, fun x => ?_⟩
    obtain ⟨h1, h2⟩ := forestLoop_spec f.reverse (.const 0) (.const 1) x
    rw [ADD.eval_sub, h1, ADD.eval_mul]
    simp [valAt]
  | twosComplement =>
    have hne := h rfl
    obtain ⟨l, b, rfl⟩ := List.eq_nil_or_concat f |>.resolve_left hne
    rw [List.concat_eq_append]
    refine ⟨_, by simp only [bddForestToAdd, withSignBit, List.reverse_append, List.reverse_cons,
      List.reverse_nil, List.nil_append, List.singleton_append]; rfl, fun x => ?_⟩
    obtain ⟨h1, h2⟩ := forestLoop_spec l.reverse (.const 0) (.const 1) x
    rw [ADD.eval_sub, h1, ADD.eval_mul, h2]
    simp only [valAt, sAt, bitsAt_append, bitsAt_cons, bitsAt_nil, tcval_append_singleton, bitsAt_length]
    simp only [ADD.eval_const, ADD.eval_ofBDD, List.length_reverse, List.reverse_reverse]
    cases b.eval x <;> simp [uAt]

theorem absoluteDifferenceAdd_spec (r : NumRep) (f g : List (BDD m))
    (hf : r = .twosComplement → f ≠ []) (hg : r = .twosComplement → g ≠ []) :
    ∃ a, absoluteDifferenceAdd r f g = .ok a ∧
      ∀ x, a.eval x = ((|valAt r f x - valAt r g x| : Int) : ℚ) := by
  obtain ⟨a, ha, ea⟩ := bddForestToAdd_spec r f hf
  obtain ⟨b, hb, eb⟩ := bddForestToAdd_spec r g hg
  refine ⟨_, by simp only [absoluteDifferenceAdd, ha, hb, bind, Except.bind]; rfl, fun x => ?_⟩
  rw [ADD.eval_apply, ea, eb]
  push_cast
  rfl

theorem xorDifferenceAdd_spec (f g : List (BDD m)) (h : f.length ≤ g.length) :
    ∃ a, xorDifferenceAdd f g = .ok a ∧
      ∀ x, a.eval x = (uval (List.zipWith Bool.xor (bitsAt f x) (bitsAt g x)) : ℚ) := by
  obtain ⟨a, ha, ea⟩ := bddForestToAdd_spec .baseTwo (List.zipWith BDD.xor f g) (by simp)
  refine ⟨a, by rw [xorDifferenceAdd, if_neg (by omega), ha], fun x => ?_⟩
  rw [ea]
  have : bitsAt (List.zipWith BDD.xor f g) x = List.zipWith Bool.xor (bitsAt f x) (bitsAt g x) := by
    unfold bitsAt
    rw [List.map_zipWith, List.zipWith_map]
    congr 1
    funext a b
    exact BDD.eval_xor a b x
  simp [valAt, uAt, this]

/-! ## Folds -/

theorem foldl_u256 {α : Type _} (f : α → Nat) : ∀ (l : List α) (s : Nat), s < 2 ^ 256 →
    l.foldl (fun s p => u256 (s + f p)) s = u256 (s + (l.map f).sum)
  | [], s, h => by rw [List.foldl_nil, List.map_nil, List.sum_nil, add_zero, u256, Nat.mod_eq_of_lt h]
  | a :: as, s, h => by
      rw [List.foldl_cons, foldl_u256 f as _ (u256_lt _), List.map_cons, List.sum_cons]
      unfold u256
      rw [Nat.mod_add_mod, add_assoc]

theorem foldl_u64 {α : Type _} (f : α → Nat) : ∀ (l : List α) (s : Nat), s < 2 ^ 64 →
    l.foldl (fun s p => u64 (s + f p)) s = u64 (s + (l.map f).sum)
  | [], s, h => by rw [List.foldl_nil, List.map_nil, List.sum_nil, add_zero, u64, Nat.mod_eq_of_lt h]
  | a :: as, s, h => by
      have hlt : u64 (s + f a) < 2 ^ 64 := Nat.mod_lt _ (by norm_num)
      rw [List.foldl_cons, foldl_u64 f as _ hlt, List.map_cons, List.sum_cons]
      unfold u64
      rw [Nat.mod_add_mod, add_assoc]

/-- The values are right whenever there is a result, whatever the variable order. -/
theorem addTerminalValues_values (a : ADD m) {l : List (ℚ × Nat)} (h : addTerminalValues a = .ok l) :
    (l.map Prod.fst).Nodup ∧ ∀ q, q ∈ l.map Prod.fst ↔ ∃ x, a.eval x = q := by
  unfold addTerminalValues at h
  cases hmp : countPaths a.d (termLevel a) with
  | error e => rw [hmp] at h; simp [bind, Except.bind] at h
  | ok mp =>
    rw [hmp] at h
    simp only [bind, Except.bind, Except.ok.injEq] at h
    have inv : TInv a.d [a.d] [a.d] := by
      refine ⟨?_, by simp, by simp, fun n hn => hn, ?_⟩
      · intro n hn
        rw [List.mem_singleton] at hn
        rw [hn]; exact AD.self_mem_subs _
      · intro v t e h1 h2
        exact absurd h1 h2
    obtain ⟨_, h2, h3⟩ := terminalLoop_spec a.d mp a.d.subs.length [a.d] [a.d] inv (by simp) (by
      have := (List.dedup_sublist a.d.subs).length_le
      simp only [List.length_singleton]; omega)
    rw [h] at h2 h3
    refine ⟨h2, fun q => ?_⟩
    rw [h3 q, AD.mem_subs_const a.wf]
    simp only [and_not_self_iff, not_false_eq_true, and_true]
    rfl

theorem vars_lt_of_bits {f g : List (BDD m)} {N : Nat} (hf : Fits N f) (hg : Fits N g) {a : ADD m}
    (F : List Bool → List Bool → ℚ) (ha : ∀ x, a.eval x = F (bitsAt f x) (bitsAt g x)) :
    ∀ v ∈ a.d.vars, v < N := by
  apply ADD.vars_lt
  intro x y hxy
  rw [ha, ha, bitsAt_agree hf hxy, bitsAt_agree hg hxy]

/-- Value of a list of bits. -/
def repVal (r : NumRep) (bs : List Bool) : Int := match r with
  | .baseTwo => (uval bs : Int)
  | .twosComplement => tcval bs

theorem valAt_eq (r : NumRep) (f : List (BDD m)) (x : Asg) : valAt r f x = repVal r (bitsAt f x) := by
  cases r <;> rfl

theorem tcval_range (bs : List Bool) : -(2 ^ bs.length : Int) ≤ 2 * tcval bs ∧
    2 * tcval bs < 2 ^ bs.length := by
  rcases List.eq_nil_or_concat bs with rfl | ⟨l, b, rfl⟩
  · simp [tcval, uval]
  · rw [List.concat_eq_append, tcval_append_singleton]
    have := uval_lt l
    have h2 : (uval l : Int) < 2 ^ l.length := by exact_mod_cast this
    simp only [List.length_append, List.length_singleton, pow_succ (2 : Int)]
    cases b <;> simp <;> omega

theorem repVal_diff_lt (r : NumRep) (a b : List Bool) :
    |repVal r a - repVal r b| < 2 ^ max a.length b.length := by
  have p1 : (2 ^ a.length : Int) ≤ 2 ^ max a.length b.length :=
    pow_le_pow_right₀ (by norm_num) (le_max_left _ _)
  have p2 : (2 ^ b.length : Int) ≤ 2 ^ max a.length b.length :=
    pow_le_pow_right₀ (by norm_num) (le_max_right _ _)
  cases r with
  | baseTwo =>
    have h1 : (uval a : Int) < 2 ^ a.length := by exact_mod_cast uval_lt a
    have h2 : (uval b : Int) < 2 ^ b.length := by exact_mod_cast uval_lt b
    simp only [repVal]
    rw [abs_lt]
    omega
  | twosComplement =>
    have h1 := tcval_range a
    have h2 := tcval_range b
    simp only [repVal]
    rw [abs_lt]
    omega

theorem toU256_natCast {k : Nat} (h : k < 2 ^ 256) : toU256 (k : ℚ) = k := by
  rw [toU256, Int.floor_natCast, Int.toNat_natCast, u256, Nat.mod_eq_of_lt h]

theorem hamming_eq_popcount : ∀ a b : List Bool, a.length = b.length → ∀ n, a.length ≤ n →
    ((List.range n).filter (fun i => (uval (List.zipWith Bool.xor a b)).testBit i)).length = hamming a b
  | [], b, hl, n, _ => by
      simp [uval, hamming]
  | a :: as, [], hl, n, _ => by simp at hl
  | a :: as, b :: bs, hl, 0, h => by simp at h
  | a :: as, b :: bs, hl, n + 1, h => by
      have ih := hamming_eq_popcount as bs (by simpa using hl) n (by simpa using h)
      have e : ∀ i, (uval (Bool.xor a b :: List.zipWith Bool.xor as bs)).testBit (i + 1)
          = (uval (List.zipWith Bool.xor as bs)).testBit i := by
        intro i
        rw [uval_testBit, uval_testBit]
        rfl
      have e0 : (uval (Bool.xor a b :: List.zipWith Bool.xor as bs)).testBit 0 = (a ^^ b) := by
        rw [uval_testBit]
        rfl
      rw [List.range_succ_eq_map, List.filter_cons, List.zipWith_cons_cons, List.filter_map, hamming,
        ← ih, e0]
      have e2 : ((fun i => (uval (Bool.xor a b :: List.zipWith Bool.xor as bs)).testBit i) ∘ Nat.succ)
          = fun i => (uval (List.zipWith Bool.xor as bs)).testBit i := funext e
      rw [e2]
      cases hab : (a ^^ b) <;> simp [Nat.add_comm]

theorem popcountll_xor (a b : List Bool) (hl : a.length = b.length) (h : a.length ≤ 64) :
    popcountll (uval (List.zipWith Bool.xor a b) : ℚ) = .ok (hamming a b) := by
  have hlt := uval_lt (List.zipWith Bool.xor a b)
  rw [List.length_zipWith, ← hl, Nat.min_self] at hlt
  have h2 : uval (List.zipWith Bool.xor a b) < 2 ^ 64 :=
    lt_of_lt_of_le hlt (Nat.pow_le_pow_right (by norm_num) h)
  rw [popcountll, if_pos ⟨by positivity, by exact_mod_cast h2⟩, Int.floor_natCast, Int.toNat_natCast,
    hamming_eq_popcount a b hl 64 h]

theorem hamming_le : ∀ a b : List Bool, hamming a b ≤ a.length
  | [], b => by simp [hamming]
  | a :: as, [] => by simp [hamming]
  | a :: as, b :: bs => by
      have := hamming_le as bs
      have h2 : (a ^^ b).toNat ≤ 1 := Bool.toNat_le _
      simp only [hamming, List.length_cons]
      omega

theorem maxFlipLoop_spec (c : ℚ → Nat) : ∀ (l : List (ℚ × Nat)) (mx : Nat),
    (∀ p ∈ l, popcountll p.1 = .ok (c p.1)) →
    maxFlipLoop l mx = .ok (l.foldl (fun s p => max (c p.1) s) mx)
  | [], mx, _ => rfl
  | p :: ps, mx, h => by
      rw [maxFlipLoop, h p (by simp)]
      simp only [bind, Except.bind, List.foldl_cons]
      exact maxFlipLoop_spec c ps _ (fun q hq => h q (by simp [hq]))

theorem avgFlipLoop_spec (c : ℚ → Nat) : ∀ (l : List (ℚ × Nat)) (s t : Nat),
    (∀ p ∈ l, popcountll p.1 = .ok (c p.1)) → s < 2 ^ 64 → t < 2 ^ 64 →
    avgFlipLoop l s t = .ok (u64 (s + (l.map (fun p => c p.1 * p.2)).sum),
      u64 (t + (l.map Prod.snd).sum))
  | [], s, t, _, hs, ht => by
      simp only [avgFlipLoop, List.map_nil, List.sum_nil, add_zero, u64, Nat.mod_eq_of_lt hs,
        Nat.mod_eq_of_lt ht]
  | p :: ps, s, t, h, hs, ht => by
      rw [avgFlipLoop, h p (by simp)]
      simp only [bind, Except.bind]
      rw [avgFlipLoop_spec c ps (u64 _) (u64 _) (fun q hq => h q (by simp [hq])) (Nat.mod_lt _ (by norm_num))
        (Nat.mod_lt _ (by norm_num))]
      simp only [List.map_cons, List.sum_cons, u64, Nat.mod_add_mod, Nat.add_mod_mod, add_assoc]

/-- Folding `max` over the list gives the largest value. -/
theorem foldl_maxf_spec {α β : Type _} [LinearOrder β] (f : α → β) : ∀ (l : List α) (s : β),
    (l.foldl (fun s p => max (f p) s) s = s ∨ ∃ p ∈ l, l.foldl (fun s p => max (f p) s) s = f p) ∧
    s ≤ l.foldl (fun s p => max (f p) s) s ∧ ∀ p ∈ l, f p ≤ l.foldl (fun s p => max (f p) s) s
  | [], s => by simp
  | a :: as, s => by
      obtain ⟨h1, h2, h3⟩ := foldl_maxf_spec f as (max (f a) s)
      rw [List.foldl_cons]
      refine ⟨?_, (le_max_right _ _).trans h2, ?_⟩
      · rcases h1 with h | ⟨p, hp, h⟩
        · rcases max_choice (f a) s with h' | h'
          · exact .inr ⟨a, by simp, by rw [h, h']⟩
          · exact .inl (by rw [h, h'])
        · exact .inr ⟨p, by simp [hp], h⟩
      · intro p hp
        rcases List.mem_cons.mp hp with rfl | hp
        · exact (le_max_left _ _).trans h2
        · exact h3 p hp

/-- The maximum of a function of the terminal values is the maximum over all inputs. -/
theorem isMax_of_values {β : Type _} [LinearOrder β] {a : ADD m} {l : List (ℚ × Nat)}
    (hv : ∀ q, q ∈ l.map Prod.fst ↔ ∃ x, a.eval x = q) (f : ℚ → β) (z : β) (hz : ∀ x, z ≤ f (a.eval x)) :
    IsMax (fun x => f (a.eval x)) (l.foldl (fun s p => max (f p.1) s) z) := by
  obtain ⟨h1, h2, h3⟩ := foldl_maxf_spec (fun p : ℚ × Nat => f p.1) l z
  have hup : ∀ x, f (a.eval x) ≤ l.foldl (fun s p => max (f p.1) s) z := by
    intro x
    obtain ⟨p, hp, hp1⟩ := List.mem_map.mp ((hv _).mpr ⟨x, rfl⟩)
    rw [← hp1]
    exact h3 p hp
  refine ⟨?_, hup⟩
  rcases h1 with h | ⟨p, hp, h⟩
  · refine ⟨fun _ => false, le_antisymm (hup _) ?_⟩
    rw [h]
    exact hz _
  · obtain ⟨x, hx⟩ := (hv p.1).mp (List.mem_map_of_mem hp)
    exact ⟨x, by simp only [h, hx]⟩

end Verif

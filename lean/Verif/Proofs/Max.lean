import Verif.Model.Metrics
import Verif.Props.Arith

/-!
# Lemmas on `get_max_value` and the approximate worst case error
-/

namespace Verif

variable {m : Mgr}

theorem uAt_reverse_cons (b : BDD m) (bs : List (BDD m)) (x : Asg) :
    uAt (b :: bs).reverse x = uAt bs.reverse x + 2 ^ bs.length * (b.eval x).toNat := by
  rw [List.reverse_cons, uAt_append]
  simp

theorem maxLoop_spec : ∀ (bs : List (BDD m)) (sigma : BDD m) (error : Nat),
    (∃ x, sigma.eval x = true) → error < 2 ^ 256 →
    ∃ M, maxLoop bs sigma error = u256 (error + M) ∧
      (∃ x, sigma.eval x = true ∧ uAt bs.reverse x = M) ∧
      ∀ x, sigma.eval x = true → uAt bs.reverse x ≤ M
  | [], sigma, error, ⟨x, hx⟩, he => ⟨0, (Nat.mod_eq_of_lt he).symm, ⟨x, hx, by simp⟩, by simp⟩
  | b :: bs, sigma, error, hs, he => by
      unfold maxLoop
      split
      · rename_i hz
        rw [BDD.isZero_iff] at hz
        simp only [BDD.eval_and] at hz
        obtain ⟨M, h1, ⟨x, hx, hM⟩, h4⟩ := maxLoop_spec bs sigma error hs he
        refine ⟨M, h1, ⟨x, hx, ?_⟩, fun y hy => ?_⟩
        · have := hz x
          rw [uAt_reverse_cons]
          simp_all
        · have := hz y
          have := h4 y hy
          rw [uAt_reverse_cons]
          simp_all
      · rename_i hz
        rw [Bool.not_eq_true, BDD.isZero_false_iff] at hz
        obtain ⟨M, h1, ⟨x, hx, hM⟩, h4⟩ :=
          maxLoop_spec bs (sigma.and b) (u256 (error + u256 (2 ^ bs.length))) hz
            (Nat.mod_lt _ (by norm_num))
        rw [BDD.eval_and, Bool.and_eq_true] at hx
        refine ⟨2 ^ bs.length + M, ?_, ⟨x, hx.1, ?_⟩, fun y hy => ?_⟩
        · rw [h1]
          unfold u256
          generalize 2 ^ bs.length = p
          omega
        · rw [uAt_reverse_cons, hx.2, hM]
          simp; omega
        · rw [uAt_reverse_cons]
          cases hb : b.eval y
          · have := uAt_lt bs.reverse y
            rw [List.length_reverse] at this
            simp; omega
          · have := h4 y (by simp [hy, hb])
            simp; omega

theorem getMaxValue_mod (f : List (BDD m)) :
    ∃ M, IsMax (uAt f) M ∧ getMaxValue f = M % 2 ^ 256 := by
  obtain ⟨M, h1, ⟨x, _, hx⟩, h4⟩ := maxLoop_spec f.reverse .one 0 ⟨fun _ => false, rfl⟩ (by norm_num)
  rw [List.reverse_reverse] at hx h4
  rw [Nat.zero_add] at h1
  exact ⟨M, ⟨⟨x, hx⟩, fun y => h4 y rfl⟩, h1⟩

theorem getMaxValue_spec (f : List (BDD m)) (h : f.length ≤ 256) : IsMax (uAt f) (getMaxValue f) := by
  obtain ⟨M, hM, he⟩ := getMaxValue_mod f
  obtain ⟨x, hx⟩ := hM.1
  have : M < 2 ^ 256 := hx ▸ lt_of_lt_of_le (uAt_lt f x) (Nat.pow_le_pow_right (by norm_num) h)
  rw [he, Nat.mod_eq_of_lt this]
  exact hM

theorem IsMax.unique {α} [PartialOrder α] {g : Asg → α} {v w : α} (h : IsMax g v) (h' : IsMax g w) :
    v = w := by
  obtain ⟨⟨x, hx⟩, h1⟩ := h
  obtain ⟨⟨y, hy⟩, h2⟩ := h'
  exact le_antisymm (hx ▸ h2 x) (hy ▸ h1 y)

/-- Two maxima of a Nat- and an Int-valued description of the same function. -/
theorem IsMax.cast {g : Asg → Nat} {g' : Asg → Int} (h : ∀ x, (g x : Int) = g' x) {v : Nat}
    (hv : IsMax g v) : IsMax g' (v : Int) := by
  obtain ⟨⟨x, hx⟩, h2⟩ := hv
  exact ⟨⟨x, by rw [← h, hx]⟩, fun y => by rw [← h]; exact_mod_cast h2 y⟩

theorem worstCaseError_baseTwo (f g : List (BDD m)) (hf : f.length ≤ 255) (hg : g.length ≤ 255) :
    ∃ w, worstCaseError .baseTwo f g = .ok w ∧ IsMax (fun x => |(uAt f x : Int) - uAt g x|) (w : Int) := by
  obtain ⟨d, hd, hl, hv⟩ := C03_absolute_difference_unsigned f g
  refine ⟨getMaxValue d, by simp [worstCaseError, hd, bind, Except.bind], ?_⟩
  exact (getMaxValue_spec d (by omega)).cast hv

theorem worstCaseError_signed (f g : List (BDD m)) (hf0 : f ≠ []) (hg0 : g ≠ [])
    (hf : f.length ≤ 256) (hg : g.length ≤ 256) :
    ∃ w, worstCaseError .twosComplement f g = .ok w ∧
      IsMax (fun x => min |sAt f x - sAt g x| (2 ^ max f.length g.length - |sAt f x - sAt g x|))
        (w : Int) := by
  obtain ⟨d, hd, hl, hv⟩ := C04_absolute_difference_signed_wraps f g hf0 hg0
  refine ⟨getMaxValue d, by simp [worstCaseError, hd, bind, Except.bind], ?_⟩
  exact (getMaxValue_spec d (by omega)).cast hv

/-! ## The loop of `approximate_worst_case_error` -/

theorem approxLoop_some (n : Nat) (hn : 1 ≤ n) : ∀ (ps : List (BDD m × BDD m)) (s : Nat)
    (acc : List (BDD m × BDD m)), s + 1 - n ≤ ps.length →
    approxLoop n ps (some s) acc =
      (some s, s + 1 - n, (ps.take (ps.length - (s + 1 - n))).reverse ++ acc)
  | [], s, acc, h => by
      simp only [List.length_nil, Nat.le_zero] at h
      simp [approxLoop, h]
  | (a, b) :: ps, s, acc, h => by
      rw [List.length_cons] at h
      unfold approxLoop
      simp only [reduceCtorEq, false_and, if_false]
      split
      · have : s + 1 - n = ps.length + 1 := by omega
        simp [this]
      · rw [approxLoop_some n hn ps s _ (by omega)]
        have : (ps.length + 1 - (s + 1 - n)) = (ps.length - (s + 1 - n)) + 1 := by omega
        simp [this]

theorem approxLoop_same (n : Nat) : ∀ (ps : List (BDD m × BDD m)) (acc : List (BDD m × BDD m)),
    (∀ p ∈ ps, p.1 = p.2) → approxLoop n ps none acc = (none, 0, ps.reverse ++ acc)
  | [], acc, _ => by simp [approxLoop]
  | (a, b) :: ps, acc, h => by
      have : a = b := h (a, b) (by simp)
      subst this
      unfold approxLoop
      simp only [ne_eq, not_true_eq_false, and_false, if_false]
      rw [approxLoop_same n ps _ (fun p hp => h p (by simp [hp]))]
      simp

theorem approxLoop_diff (n : Nat) (hn : 1 ≤ n) (a b : BDD m) (hab : a ≠ b) (B : List (BDD m × BDD m)) :
    ∀ (A : List (BDD m × BDD m)) (acc : List (BDD m × BDD m)), (∀ p ∈ A, p.1 = p.2) →
    approxLoop n (A ++ (a, b) :: B) none acc = (some B.length, B.length + 1 - n,
      ((A ++ (a, b) :: B).take ((A ++ (a, b) :: B).length - (B.length + 1 - n))).reverse ++ acc)
  | [], acc, _ => by
      have hne : a.edge ≠ b.edge := fun h => hab (BDD.ext_edge h)
      rw [List.nil_append]
      unfold approxLoop
      simp only [true_and, hne, ne_eq, not_false_eq_true, if_true, Nat.sub_self, ge_iff_le]
      rw [if_neg (by omega), approxLoop_some n hn B _ _ (by omega)]
      have : (B.length + 1 - (B.length + 1 - n)) = (B.length - (B.length + 1 - n)) + 1 := by omega
      simp [this]
  | (c, d) :: A, acc, h => by
      have : c = d := h (c, d) (by simp)
      subst this
      rw [List.cons_append]
      unfold approxLoop
      simp only [ne_eq, not_true_eq_false, and_false, if_false]
      rw [approxLoop_diff n hn a b hab B A _ (fun p hp => h p (by simp [hp]))]
      have : ((A ++ (a, b) :: B).length + 1 - (B.length + 1 - n))
          = ((A ++ (a, b) :: B).length - (B.length + 1 - n)) + 1 := by
        simp only [List.length_append, List.length_cons]; omega
      rw [List.length_cons, this, List.take_succ_cons, List.reverse_cons, List.append_assoc]
      rfl

/-- The loop applied to two vectors whose highest differing bit is `k`. -/
theorem approxLoop_zip (n : Nat) (hn : 1 ≤ n) (F G : List (BDD m)) (hl : F.length = G.length)
    (k : Nat) (hk : F[k]? ≠ G[k]?) (hj : ∀ j, k < j → F[j]? = G[j]?) :
    approxLoop n (F.zip G).reverse none [] = (some k, k + 1 - n, (F.zip G).drop (k + 1 - n)) := by
  have hkl : k < F.length := by
    by_contra h
    apply hk
    rw [List.getElem?_eq_none (by omega), List.getElem?_eq_none (by omega)]
  have hkG : k < G.length := by omega
  have hkz : k < (F.zip G).length := by rw [List.length_zip]; omega
  have hne : F[k] ≠ G[k] := fun h => hk (by
    rw [List.getElem?_eq_getElem hkl, List.getElem?_eq_getElem hkG, h])
  have hsplit : F.zip G = (F.zip G).take k ++ (F[k], G[k]) :: (F.zip G).drop (k + 1) := by
    conv_lhs => rw [← List.take_append_drop k (F.zip G)]
    rw [List.drop_eq_getElem_cons hkz, List.getElem_zip]
  have hrev : (F.zip G).reverse =
      ((F.zip G).drop (k + 1)).reverse ++ (F[k], G[k]) :: ((F.zip G).take k).reverse := by
    conv_lhs => rw [hsplit]
    simp
  have hlenk : ((F.zip G).take k).reverse.length = k := by
    rw [List.length_reverse, List.length_take]; omega
  have := approxLoop_diff n hn F[k] G[k] hne ((F.zip G).take k).reverse
    ((F.zip G).drop (k + 1)).reverse [] (by
      intro p hp
      rw [List.mem_reverse, List.mem_iff_getElem] at hp
      obtain ⟨i, hi, rfl⟩ := hp
      rw [List.length_drop, List.length_zip] at hi
      rw [List.getElem_drop, List.getElem_zip]
      have := hj (k + 1 + i) (by omega)
      rw [List.getElem?_eq_getElem (by omega), List.getElem?_eq_getElem (by omega)] at this
      exact Option.some.inj this)
  rw [← hrev, hlenk] at this
  rw [this, List.append_nil, List.take_reverse, List.reverse_reverse, List.length_reverse]
  congr 3
  rw [List.length_zip]
  omega

theorem zip_drop_fst (F G : List (BDD m)) (hl : F.length = G.length) (s : Nat) :
    ((F.zip G).drop s).map Prod.fst = F.drop s := by
  rw [List.map_drop, List.map_fst_zip (by omega)]

theorem zip_drop_snd (F G : List (BDD m)) (hl : F.length = G.length) (s : Nat) :
    ((F.zip G).drop s).map Prod.snd = G.drop s := by
  rw [List.map_drop, List.map_snd_zip (by omega)]

theorem uAt_split (F : List (BDD m)) (s : Nat) (hs : s ≤ F.length) (x : Asg) :
    uAt F x = uAt (F.take s) x + 2 ^ s * uAt (F.drop s) x ∧ uAt (F.take s) x < 2 ^ s := by
  have h1 : (F.take s).length = s := by rw [List.length_take]; omega
  constructor
  · conv_lhs => rw [← List.take_append_drop s F]
    rw [uAt_append, h1]
  · have := uAt_lt (F.take s) x
    rwa [h1] at this

/-- Dropping `s` low bits of both numbers. -/
theorem drop_bounds (F G : List (BDD m)) (hl : F.length = G.length) (s : Nat) (hs : s ≤ F.length)
    (x : Asg) :
    |(uAt F x : Int) - uAt G x| ≤ (|(uAt (F.drop s) x : Int) - uAt (G.drop s) x| + 1) * 2 ^ s - 1 ∧
    |(uAt (F.drop s) x : Int) - uAt (G.drop s) x| * 2 ^ s ≤ |(uAt F x : Int) - uAt G x| + 2 ^ s - 1 := by
  obtain ⟨h1, h2⟩ := uAt_split F s hs x
  obtain ⟨h3, h4⟩ := uAt_split G s (by omega) x
  rw [h1, h3]
  push_cast
  generalize (uAt (F.drop s) x : Int) = p
  generalize (uAt (G.drop s) x : Int) = q
  zify at h2 h4
  have h5 : (0 : Int) ≤ uAt (F.take s) x := by positivity
  have h6 : (0 : Int) ≤ uAt (G.take s) x := by positivity
  generalize (uAt (F.take s) x : Int) = a at *
  generalize (uAt (G.take s) x : Int) = b at *
  generalize (2 : Int) ^ s = P at *
  have e : a + P * p - (b + P * q) = (p - q) * P + (a - b) := by ring
  rw [e]
  have hP : |P| = P := abs_of_nonneg (by omega)
  have key : |(p - q) * P| = |p - q| * P := by rw [abs_mul, hP]
  constructor
  · have := abs_add_le ((p - q) * P) (a - b)
    have h7 : |a - b| ≤ P - 1 := by rw [abs_le]; constructor <;> omega
    rw [add_mul]
    linarith
  · have := abs_sub ((p - q) * P + (a - b)) (a - b)
    have e2 : (p - q) * P + (a - b) - (a - b) = (p - q) * P := by ring
    rw [e2, key] at this
    have h7 : |a - b| ≤ P - 1 := by rw [abs_le]; constructor <;> omega
    linarith

/-- The returned number for a maximum `M` and shift `s` without overflow. -/
theorem approx_result (M s : Nat) (h : (M + 1) * 2 ^ s ≤ 2 ^ 255) :
    u256 (u256 (u256 (M + 1) * u256 (2 ^ s)) + 2 ^ 256 - 1) = (M + 1) * 2 ^ s - 1 := by
  have hp : 0 < 2 ^ s := by positivity
  have h1 : M + 1 ≤ (M + 1) * 2 ^ s := Nat.le_mul_of_pos_right _ hp
  have h2 : 2 ^ s ≤ (M + 1) * 2 ^ s := Nat.le_mul_of_pos_left _ (by omega)
  have h3 : (2 : Nat) ^ 255 < 2 ^ 256 := by norm_num
  unfold u256
  rw [Nat.mod_eq_of_lt (a := M + 1) (by omega), Nat.mod_eq_of_lt (a := 2 ^ s) (by omega),
    Nat.mod_eq_of_lt (a := (M + 1) * 2 ^ s) (by omega)]
  have : (M + 1) * 2 ^ s + 2 ^ 256 - 1 = ((M + 1) * 2 ^ s - 1) + 2 ^ 256 := by omega
  rw [this, Nat.add_mod_right, Nat.mod_eq_of_lt (by omega)]

/-- From the maximum of the high parts to the bounds on the returned number. -/
theorem approx_bounds (F G : List (BDD m)) (hl : F.length = G.length) (s M : Nat)
    (hs : s ≤ F.length) (hF : F.length ≤ 255)
    (hM : IsMax (fun x => |(uAt (F.drop s) x : Int) - uAt (G.drop s) x|) (M : Int)) :
    u256 (u256 (u256 (M + 1) * u256 (2 ^ s)) + 2 ^ 256 - 1) = (M + 1) * 2 ^ s - 1 ∧
    ∀ w : Int, IsMax (fun x => |(uAt F x : Int) - uAt G x|) w →
      w ≤ (((M + 1) * 2 ^ s - 1 : Nat) : Int) ∧
      (((M + 1) * 2 ^ s - 1 : Nat) : Int) ≤ w + 2 ^ (s + 1) - 2 := by
  obtain ⟨⟨y, hy⟩, hmax⟩ := hM
  have hMlt : M + 1 ≤ 2 ^ (F.length - s) := by
    have h1 := uAt_lt (F.drop s) y
    have h2 := uAt_lt (G.drop s) y
    rw [List.length_drop] at h1 h2
    rw [← hl] at h2
    have : (M : Int) < 2 ^ (F.length - s) := by
      rw [← hy]
      zify at h1 h2
      show |(uAt (F.drop s) y : Int) - uAt (G.drop s) y| < _
      rw [abs_lt]
      constructor <;> omega
    exact_mod_cast this
  have hov : (M + 1) * 2 ^ s ≤ 2 ^ 255 := by
    calc (M + 1) * 2 ^ s ≤ 2 ^ (F.length - s) * 2 ^ s := Nat.mul_le_mul_right _ hMlt
      _ = 2 ^ F.length := by rw [← pow_add]; congr 1; omega
      _ ≤ 2 ^ 255 := Nat.pow_le_pow_right (by norm_num) hF
  refine ⟨approx_result M s hov, ?_⟩
  have hpos : 1 ≤ (M + 1) * 2 ^ s := Nat.mul_pos (by omega) (by positivity)
  have ecast : (((M + 1) * 2 ^ s - 1 : Nat) : Int) = ((M : Int) + 1) * 2 ^ s - 1 := by
    rw [Nat.cast_sub hpos]; push_cast; ring
  rw [ecast]
  rintro w ⟨⟨z, hz⟩, hw⟩
  constructor
  · rw [← hz]
    refine le_trans (drop_bounds F G hl s hs z).1 ?_
    have := hmax z
    have h0 : (0 : Int) ≤ 2 ^ s := by positivity
    have : (|(uAt (F.drop s) z : Int) - uAt (G.drop s) z| + 1) * 2 ^ s ≤ ((M : Int) + 1) * 2 ^ s :=
      mul_le_mul_of_nonneg_right (by simpa using this) h0
    linarith
  · have h1 := (drop_bounds F G hl s hs y).2
    have h2 := hw y
    simp only at hy h2
    rw [hy] at h1
    rw [pow_succ]
    linarith

theorem sAt_append (f : List (BDD m)) (s : BDD m) (x : Asg) :
    sAt (f ++ [s]) x = (uAt f x : Int) - if s.eval x then 2 ^ f.length else 0 := by
  rw [sAt, bitsAt_append, bitsAt_cons, bitsAt_nil, tcval_append_singleton, bitsAt_length]
  rfl

/-- Either two vectors of the same length are equal or there is a highest differing bit. -/
theorem eq_or_highest (f g : List (BDD m)) (hl : f.length = g.length) :
    f = g ∨ ∃ k : Nat, f[k]? ≠ g[k]? ∧ ∀ j, k < j → f[j]? = g[j]? := by
  classical
  by_cases h : ∃ k : Nat, k < f.length ∧ f[k]? ≠ g[k]?
  · right
    obtain ⟨k, hk⟩ := h
    let P := fun k : Nat => f[k]? ≠ g[k]?
    have hP : P (Nat.findGreatest P f.length) := Nat.findGreatest_spec (P := P) hk.1.le hk.2
    refine ⟨_, hP, fun j hj => ?_⟩
    by_contra hc
    by_cases hjl : j ≤ f.length
    · exact absurd (Nat.le_findGreatest (P := P) hjl hc) (by omega)
    · apply hc
      rw [List.getElem?_eq_none (by omega), List.getElem?_eq_none (by omega)]
  · left
    push Not at h
    apply List.ext_getElem?
    intro i
    by_cases hi : i < f.length
    · exact h i hi
    · rw [List.getElem?_eq_none (by omega), List.getElem?_eq_none (by omega)]

theorem approx_baseTwo_at (f g : List (BDD m)) (n : Int) (hn : 1 ≤ n) (hl : f.length = g.length)
    (hf : f.length ≤ 255) (w : Int) (hw : IsMax (fun x => |(uAt f x : Int) - uAt g x|) w)
    (k : Nat) (hk : f[k]? ≠ g[k]?) (hj : ∀ j, k < j → f[j]? = g[j]?) :
    ∃ r : Nat, approximateWorstCaseError .baseTwo f g n = .ok r ∧ w ≤ r ∧
        (r : Int) ≤ w + 2 ^ (k + 1 - n.toNat + 1) - 2 := by
  have hkl : k < f.length := by
    by_contra h
    apply hk
    rw [List.getElem?_eq_none (by omega), List.getElem?_eq_none (by omega)]
  have hloop := approxLoop_zip n.toNat (by omega) f g hl k hk hj
  obtain ⟨M, hM, hMax⟩ := worstCaseError_baseTwo (f.drop (k + 1 - n.toNat)) (g.drop (k + 1 - n.toNat))
    (by rw [List.length_drop]; omega) (by rw [List.length_drop]; omega)
  obtain ⟨hr, hb⟩ := approx_bounds f g hl (k + 1 - n.toNat) M (by omega) hf hMax
  refine ⟨_, ?_, hb w hw⟩
  obtain ⟨d, hd, hmx⟩ : ∃ d, bddAbsoluteDifference .baseTwo (f.drop (k + 1 - n.toNat))
      (g.drop (k + 1 - n.toNat)) = .ok d ∧ getMaxValue d = M := by
    unfold worstCaseError at hM
    cases hd : bddAbsoluteDifference .baseTwo (f.drop (k + 1 - n.toNat)) (g.drop (k + 1 - n.toNat)) with
    | error e => simp [hd, bind, Except.bind] at hM
    | ok d => exact ⟨d, rfl, by simpa [hd, bind, Except.bind] using hM⟩
  rw [approximateWorstCaseError, if_neg (by omega)]
  simp only [hloop, zip_drop_fst f g hl, zip_drop_snd f g hl, hd, hmx, bind, Except.bind, hr]

theorem approx_baseTwo (f g : List (BDD m)) (n : Int) (hn : 1 ≤ n) (hl : f.length = g.length)
    (hf : f.length ≤ 255) (w : Int) (hw : IsMax (fun x => |(uAt f x : Int) - uAt g x|) w) :
    (f = g ∧ approximateWorstCaseError .baseTwo f g n = .ok 0) ∨
    ∃ k : Nat, f[k]? ≠ g[k]? ∧ (∀ j, k < j → f[j]? = g[j]?) ∧
      ∃ r : Nat, approximateWorstCaseError .baseTwo f g n = .ok r ∧ w ≤ r ∧
        (r : Int) ≤ w + 2 ^ (k + 1 - n.toNat + 1) - 2 := by
  rcases eq_or_highest f g hl with rfl | ⟨k, hk, hj⟩
  · left
    refine ⟨rfl, ?_⟩
    rw [approximateWorstCaseError, if_neg (by omega)]
    simp only
    rw [approxLoop_same]
    intro p hp
    rw [List.mem_reverse] at hp
    obtain ⟨i, hi, rfl⟩ := List.mem_iff_getElem.mp hp
    simp
  · exact .inr ⟨k, hk, hj, approx_baseTwo_at f g n hn hl hf w hw k hk hj⟩

theorem approx_signed (f g : List (BDD m)) (s : BDD m) (n : Int) (hn : 1 ≤ n) (hl : f.length = g.length)
    (hf : f.length ≤ 255) (w : Int) (hw : IsMax (fun x => |(uAt f x : Int) - uAt g x|) w) :
    (f = g ∧ approximateWorstCaseError .twosComplement (f ++ [s]) (g ++ [s]) n = .ok 0) ∨
    ∃ k : Nat, f[k]? ≠ g[k]? ∧ (∀ j, k < j → f[j]? = g[j]?) ∧
      ∃ r : Nat, approximateWorstCaseError .twosComplement (f ++ [s]) (g ++ [s]) n = .ok r ∧ w ≤ r ∧
        (r : Int) ≤ w + 2 ^ (k + 1 - n.toNat + 1) - 2 := by
  have hz : ((f ++ [s]).zip (g ++ [s])).reverse.drop 1 = (f.zip g).reverse := by
    rw [List.zip_append hl]; simp
  rcases eq_or_highest f g hl with rfl | ⟨k, hk, hj⟩
  · left
    refine ⟨rfl, ?_⟩
    rw [approximateWorstCaseError, if_neg (by omega)]
    simp only [hz]
    rw [approxLoop_same]
    intro p hp
    rw [List.mem_reverse] at hp
    obtain ⟨i, hi, rfl⟩ := List.mem_iff_getElem.mp hp
    simp
  · right
    refine ⟨k, hk, hj, ?_⟩
    have hkl : k < f.length := by
      by_contra h
      apply hk
      rw [List.getElem?_eq_none (by omega), List.getElem?_eq_none (by omega)]
    have hloop := approxLoop_zip n.toNat (by omega) f g hl k hk hj
    set sh := k + 1 - n.toNat with hsh
    have hsl : sh ≤ f.length := by omega
    obtain ⟨d, hd, hdl, hv⟩ := C04_absolute_difference_signed_wraps (f.drop sh ++ [s]) (g.drop sh ++ [s])
      (by simp) (by simp)
    have hmx := (getMaxValue_spec d (by
      rw [hdl]; simp only [List.length_append, List.length_drop, List.length_cons, List.length_nil]
      omega))
    have hdv : ∀ x, (uAt d x : Int) = |(uAt (f.drop sh) x : Int) - uAt (g.drop sh) x| := fun x => by
      have hlen : (f.drop sh).length = (g.drop sh).length := by simp [hl]
      have h1 := uAt_lt (f.drop sh) x
      have h2 := uAt_lt (g.drop sh) x
      rw [← hlen] at h2
      zify at h1 h2
      have e : sAt (f.drop sh ++ [s]) x - sAt (g.drop sh ++ [s]) x
          = (uAt (f.drop sh) x : Int) - uAt (g.drop sh) x := by
        rw [sAt_append, sAt_append, hlen]; ring
      rw [hv x, e]
      have e2 : max (f.drop sh ++ [s]).length (g.drop sh ++ [s]).length = (f.drop sh).length + 1 := by
        simp [hl]
      rw [e2, pow_succ]
      rcases abs_cases ((uAt (f.drop sh) x : Int) - uAt (g.drop sh) x) with h | h <;> omega
    obtain ⟨hr, hb⟩ := approx_bounds f g hl sh (getMaxValue d) hsl hf (hmx.cast hdv)
    refine ⟨_, ?_, hb w hw⟩
    rw [approximateWorstCaseError, if_neg (by simp; omega)]
    simp only [hz, hloop, zip_drop_fst f g hl, zip_drop_snd f g hl, vback_append_singleton, hd, bind,
      Except.bind, hr]

end Verif

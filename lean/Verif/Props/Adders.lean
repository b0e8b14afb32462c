import Verif.Proofs.Adders

/-!
# C17, C62 – C65: adders and simple example functions

Widths are below `2^31`, parameters below `2^32`.
-/

namespace Verif

variable {m : Mgr}

/-! ## C17 `regular_adder`, `eval_adder` -/

theorem C17_regular_adder (n : Nat) : ∃ f : List (BDD m), regularAdder n = .ok f ∧
    f.length = n + 1 ∧ Fits (2 * n) f ∧ ∀ x, uAt f x = opA n x + opB n x := by
  obtain ⟨f, h1, h2⟩ := regularAdder_spec (m := m) n
  exact ⟨f, h1, h2.len, h2.fits, fun x => (h2.exact_iff x).mpr (fun _ _ h => h)⟩

/-- `eval_adder` gives the value at the input with the two operands, whatever their signs: below 32 bits they count
modulo `2^n`. -/
theorem C17_eval_adder_signed (f : List (BDD m)) (n : Nat) (a b : Int) (hn : n ≤ 32) (hl : f.length ≤ 63)
    (hf : Fits (2 * n) f) :
    ∃ x, opA n x = adderOperand n a ∧ opB n x = adderOperand n b ∧ evalAdder f a b n = .ok (uAt f x) := by
  refine ⟨asgOf (adderInput a b n), opA_adderInput a b hn, opB_adderInput a b hn, ?_⟩
  unfold evalAdder
  rw [if_neg (by omega)]
  have hf' : Fits (adderInput a b n).length f := by rwa [adderInput_length]
  obtain ⟨v, hv⟩ := evalLoop_total (inp := adderInput a b n) f 0 (by omega) hf'
  have := evalLoop_sound f 0 v hv
  rw [pow_zero, one_mul] at this
  rw [← this]
  exact hv

/-- Operands that fit are passed on as they are. -/
theorem C17_eval_adder (f : List (BDD m)) (n a b : Nat) (hn : n ≤ 32) (hl : f.length ≤ 63)
    (hf : Fits (2 * n) f) (ha : a < 2 ^ n) (hb : b < 2 ^ n) :
    ∃ x, opA n x = a ∧ opB n x = b ∧ evalAdder f a b n = .ok (uAt f x) := by
  obtain ⟨x, h1, h2, h3⟩ := C17_eval_adder_signed f n a b hn hl hf
  exact ⟨x, by rw [h1, adderOperand_nat ha hn], by rw [h2, adderOperand_nat hb hn], h3⟩

/-- Below 32 bits the sum of the regular adder is right modulo `2^n`, also for negative operands. -/
theorem C17_eval_regular_adder_signed (n : Nat) (a b : Int) (hn : n ≤ 31) :
    ∃ (f : List (BDD m)) (v : Nat), regularAdder n = .ok f ∧ evalAdder f a b n = .ok v ∧
      v < 2 ^ (n + 1) ∧ (v : Int) % 2 ^ n = (a + b) % 2 ^ n := by
  obtain ⟨f, h1, h2, h3, h4⟩ := C17_regular_adder (m := m) n
  obtain ⟨x, hx1, hx2, hx3⟩ := C17_eval_adder_signed f n a b (by omega) (by omega) h3
  have la := opA_lt n x
  have lb := opB_lt n x
  refine ⟨f, _, h1, hx3, by rw [h4, pow_succ]; omega, ?_⟩
  rw [h4, hx1, hx2]
  simp only [adderOperand, if_pos hn]
  push_cast
  rw [toNat_emod_pow, toNat_emod_pow, ← Int.add_emod]

/-- At 32 bits it is not: the top bit of negative operands is lost, so `-1 + 0` gives `2^31 - 1`. -/
theorem C17_eval_regular_adder_32 (a b : Int) (ha : a < 2 ^ 31) (hb : b < 2 ^ 31) :
    ∃ (f : List (BDD m)) (v : Nat), regularAdder 32 = .ok f ∧ evalAdder f a b 32 = .ok v ∧
      (v : Int) = a % 2 ^ 31 + b % 2 ^ 31 ∧ (-2 ^ 31 ≤ a → a < 0 → 0 ≤ b → (v : Int) % 2 ^ 32 ≠ (a + b) % 2 ^ 32) := by
  obtain ⟨f, h1, h2, h3, h4⟩ := C17_regular_adder (m := m) 32
  obtain ⟨x, hx1, hx2, hx3⟩ := C17_eval_adder_signed f 32 a b (by omega) (by omega) h3
  have hv : ((uAt f x : Nat) : Int) = a % 2 ^ 31 + b % 2 ^ 31 := by
    rw [h4, hx1, hx2]
    unfold adderOperand
    rw [if_neg (by omega), if_neg (by omega), if_neg (by omega), if_neg (by omega)]
    omega
  exact ⟨f, _, h1, hx3, hv, fun h h1 h2 => by omega⟩

theorem C17_eval_regular_adder (n a b : Nat) (hn : n ≤ 32) (ha : a < 2 ^ n) (hb : b < 2 ^ n) :
    ∃ f : List (BDD m), regularAdder n = .ok f ∧ evalAdder f a b n = .ok (a + b) := by
  obtain ⟨f, h1, h2, h3, h4⟩ := C17_regular_adder (m := m) n
  obtain ⟨x, hx1, hx2, hx3⟩ := C17_eval_adder f n a b hn (by omega) h3 ha hb
  exact ⟨f, h1, by rw [hx3, h4, hx1, hx2]⟩

/-- Beyond 32 bits the shift is undefined. -/
theorem C17_eval_adder_ub (f : List (BDD m)) (n : Nat) (a b : Int) (hn : 32 < n) :
    evalAdder f a b n = .error .ub := by
  unfold evalAdder
  rw [if_pos hn]

example : (do let f ← regularAdder (m := .id) 3; evalAdder f 5 6 3) = .ok 11 := by decide +kernel
example : (do let f ← regularAdder (m := .id) 3; evalAdder f (-3) 4 3) = .ok 9 ∧ (9 : Int) % 2 ^ 3 = (-3 + 4) % 2 ^ 3 := by
  decide +kernel

/-! ## C62 the approximate adders never overestimate -/

theorem C62_almost_correct_adder_1 (asserts : Bool) (n p : Nat) (hn : n < 2 ^ 31) (hp : 1 ≤ p)
    (hpn : p ≤ n) : ∃ f : List (BDD m), almostCorrectAdder1 asserts n p = .ok f ∧
    f.length = n + 1 ∧ ∀ x, uAt f x ≤ opA n x + opB n x := by
  obtain ⟨f, h1, h2⟩ := almostCorrectAdder1_spec (m := m) asserts (show 0 < n by omega) hn hp (.inl hpn)
  exact ⟨f, h1, h2.len, h2.le_sum⟩

/-- Legal parameters: `2 ≤ p ≤ n`, or a width of 1. -/
theorem C62_almost_correct_adder_2 (asserts : Bool) (n p : Nat) (hn : n < 2 ^ 31) (hp : 1 ≤ p)
    (hpn : p ≤ n) (h2 : n = 1 ∨ 2 ≤ p) :
    ∃ f : List (BDD m), almostCorrectAdder2 asserts n p = .ok f ∧
    f.length = n + 1 ∧ ∀ x, uAt f x ≤ opA n x + opB n x := by
  obtain ⟨f, h1, h2⟩ := almostCorrectAdder2_spec (m := m) asserts (show 0 < n by omega) hn hp (by omega)
    (fun _ => hpn) h2
  exact ⟨f, h1, h2.len, h2.le_sum⟩

theorem C62_gracefully_degrading_adder (n parts q : Nat) (hp : 1 ≤ parts) (hpn : parts ≤ n) :
    ∃ f : List (BDD m), gracefullyDegradingAdder n parts q = .ok f ∧
    f.length = n + 1 ∧ ∀ x, uAt f x ≤ opA n x + opB n x := by
  obtain ⟨f, h1, h2⟩ := blockAdder_spec (m := m) (n := n) (parts := parts)
    (w := downFrom (u32sub q 1)) (by omega) (fun _ => div_ne_zero' hp hpn)
  exact ⟨f, h1, h2.len, h2.le_sum⟩

/-- Legal parameters: the sub adders have between 1 and `n + 1` bits, and not both `n` and their
length are 1. -/
theorem C62_generic_accuracy_reconfigurable_adder (n res prev : Nat) (hn : 0 < n) (hn' : n < 2 ^ 31)
    (h1 : 1 ≤ res + prev) (hle : res + prev ≤ n + 1) (h2 : 2 ≤ n ∨ 2 ≤ res + prev) :
    ∃ f : List (BDD m), genericAccuracyReconfigurableAdder n res prev = .ok f ∧
    f.length = n + 1 ∧ ∀ x, uAt f x ≤ opA n x + opB n x := by
  obtain ⟨f, h1, h2⟩ := gear_spec (m := m) hn hn' h1 hle h2
  exact ⟨f, h1, h2.len, h2.le_sum⟩

/-- 7 + 1 with a window of one bit: the result is 4, not 8. -/
example : (do let f ← almostCorrectAdder1 (m := .id) true 3 2; evalAdder f 7 1 3) = .ok 4 := by
  decide +kernel
example : (do let f ← gracefullyDegradingAdder (m := .id) 4 2 1; evalAdder f 3 1 4) = .ok 0 := by
  decide +kernel
example : (do let f ← genericAccuracyReconfigurableAdder (m := .id) 4 1 1; evalAdder f 3 1 4) =
    .ok 0 := by decide +kernel
example : (do let f ← almostCorrectAdder2 (m := .id) true 6 2; evalAdder f 15 1 6) =
    .ok 12 := by decide +kernel

/-! ## C63 exactness

For every adder: the carry into position `k` is the carry of the bits from a starting position on
(`aca1Start`, `blockStart`, `gearStart`); the sum is exact iff no carry is dropped by this, and what is
missing is the weight of the dropped carries. -/

/-- Each carry is computed from the `p - 1` bits below; the `p` lowest bits are exact. -/
theorem C63_almost_correct_adder_1 (asserts : Bool) (n p : Nat) (hn : n < 2 ^ 31) (hp : 1 ≤ p)
    (hpn : p ≤ n) : ∃ f : List (BDD m), almostCorrectAdder1 asserts n p = .ok f ∧
    WindowAdder n (aca1Start p) f ∧
    ∀ x, ∀ i < p, (uAt f x).testBit i = (opA n x + opB n x).testBit i := by
  obtain ⟨f, h1, h2⟩ := almostCorrectAdder1_spec (m := m) asserts (show 0 < n by omega) hn hp (.inl hpn)
  exact ⟨f, h1, h2.window, fun x i hi => (h2.window x).2.2.2.2 i (by omega)
    (by unfold aca1Start; omega)⟩

/-- With a window as wide as the adder the result is exact but for the final carry. -/
theorem C63_almost_correct_adder_1_full (asserts : Bool) (n : Nat) (hn : n < 2 ^ 31) (h1 : 1 ≤ n) :
    ∃ f : List (BDD m), almostCorrectAdder1 asserts n n = .ok f ∧
    ∀ x, uAt f x % 2 ^ n = (opA n x + opB n x) % 2 ^ n := by
  obtain ⟨f, h1, -, h2⟩ := C63_almost_correct_adder_1 (m := m) asserts n n hn h1 (le_refl n)
  refine ⟨f, h1, fun x => Nat.eq_of_testBit_eq (fun i => ?_)⟩
  rw [Nat.testBit_mod_two_pow, Nat.testBit_mod_two_pow]
  by_cases hi : i < n
  · rw [h2 x i hi]
  · simp [hi]

/-- The block boundaries are the multiples of `l = n / (n / p + 1)` between 2 and `n - 1`; `p / 2` bits
below them are used. -/
theorem C63_almost_correct_adder_2 (asserts : Bool) (n p : Nat) (hn : n < 2 ^ 31) (hp : 1 ≤ p)
    (hpn : p ≤ n) (h2 : n = 1 ∨ 2 ≤ p) :
    ∃ f : List (BDD m), almostCorrectAdder2 asserts n p = .ok f ∧
    WindowAdder n (blockStart n (n / (n / p + 1)) (p / 2)) f ∧
    ∀ x, ∀ i < n / (n / p + 1), (uAt f x).testBit i = (opA n x + opB n x).testBit i := by
  obtain ⟨f, h1, h2⟩ := almostCorrectAdder2_spec (m := m) asserts (show 0 < n by omega) hn hp (by omega)
    (fun _ => hpn) h2
  refine ⟨f, h1, h2.window, fun x i hi => (h2.window x).2.2.2.2 i ?_ ?_⟩
  · have := Nat.div_le_self n (n / p + 1)
    omega
  · unfold blockStart
    rw [Nat.div_eq_of_lt (by omega)]
    simp

/-- The block boundaries are the multiples of `n / parts` between 2 and `n - 1`; `q` bits below them
are used for the prediction. -/
theorem C63_gracefully_degrading_adder (n parts q : Nat) (hp : 1 ≤ parts) (hpn : parts ≤ n)
    (hq : q ≤ 2 ^ 31) :
    ∃ f : List (BDD m), gracefullyDegradingAdder n parts q = .ok f ∧
    WindowAdder n (blockStart n (n / parts) q) f ∧
    ∀ x, ∀ i < n / parts, (uAt f x).testBit i = (opA n x + opB n x).testBit i := by
  obtain ⟨f, h1, h2⟩ := blockAdder_spec (m := m) (n := n) (parts := parts)
    (w := q) (by omega) (fun _ => div_ne_zero' hp hpn)
  refine ⟨f, ?_, h2.window, fun x i hi => (h2.window x).2.2.2.2 i ?_ ?_⟩
  · unfold gracefullyDegradingAdder
    rw [downFrom_pred hq]
    exact h1
  · have := Nat.div_le_self n parts
    omega
  · unfold blockStart
    rw [Nat.div_eq_of_lt (by omega)]
    simp

/-- One partition: an exact adder. -/
theorem C63_gracefully_degrading_adder_one (n q : Nat) (hn : 1 ≤ n) (hq : q ≤ 2 ^ 31) :
    ∃ f : List (BDD m), gracefullyDegradingAdder n 1 q = .ok f ∧
    ∀ x, uAt f x = opA n x + opB n x := by
  obtain ⟨f, h1, h2, _⟩ := C63_gracefully_degrading_adder (m := m) n 1 q (le_refl 1) hn hq
  refine ⟨f, h1, fun x => (h2 x).2.2.1.mpr (fun k hk h => ?_)⟩
  unfold blockStart
  rw [Nat.div_one, Nat.div_eq_of_lt (by omega)]
  simpa using h

/-- The sub adders overlap in `prev` bits; the bits of the first one are exact. -/
theorem C63_generic_accuracy_reconfigurable_adder (n res prev : Nat) (hn : 0 < n) (hn' : n < 2 ^ 31)
    (h1 : 1 ≤ res + prev) (hle : res + prev ≤ n + 1) (h2 : 2 ≤ n ∨ 2 ≤ res + prev) :
    ∃ f : List (BDD m), genericAccuracyReconfigurableAdder n res prev = .ok f ∧
    WindowAdder n (gearStart n res prev) f ∧
    ∀ x, ∀ i < res + prev, (uAt f x).testBit i = (opA n x + opB n x).testBit i := by
  obtain ⟨f, h1, h2⟩ := gear_spec (m := m) hn hn' h1 hle h2
  refine ⟨f, h1, h2.window, fun x i hi => (h2.window x).2.2.2.2 i (by omega) ?_⟩
  unfold gearStart
  rw [if_pos (by omega)]

/-- Sums without a long carry chain are exact, 5 + 2 and 1 + 1 here. -/
example : (do let f ← almostCorrectAdder1 (m := .id) true 3 2; evalAdder f 5 2 3) = .ok 7 ∧
    (do let f ← gracefullyDegradingAdder (m := .id) 4 2 1; evalAdder f 1 1 4) = .ok 2 := by
  decide +kernel

/-! ## C64 parameters with defined behaviour -/

/-- With assertions every illegal parameter is detected. -/
theorem C64_almost_correct_adder_1_asserts (n p : Nat) (hn : n < 2 ^ 31) :
    if 1 ≤ p ∧ p ≤ n then ∃ f : List (BDD m), almostCorrectAdder1 true n p = .ok f
    else almostCorrectAdder1 true n p = (.error .assertion : Except Fault (List (BDD m))) := by
  split
  · rename_i h
    obtain ⟨f, h1, _⟩ := C62_almost_correct_adder_1 (m := m) true n p hn h.1 h.2
    exact ⟨f, h1⟩
  · rename_i h
    unfold almostCorrectAdder1
    rw [if_pos ⟨rfl, fun h' => h ⟨h'.2, h'.1⟩⟩]

/-- Without assertions. -/
theorem C64_almost_correct_adder_1 (n p : Nat) (hn : n < 2 ^ 31) (hp : p < 2 ^ 32) :
    if 1 ≤ n ∧ 1 ≤ p ∧ p ≤ n + 1 then ∃ f : List (BDD m), almostCorrectAdder1 false n p = .ok f
    else almostCorrectAdder1 false n p = (.error .ub : Except Fault (List (BDD m))) := by
  split
  · rename_i h
    obtain ⟨f, h1, _⟩ := almostCorrectAdder1_spec (m := m) false (n := n) (p := p) (by omega) hn (by omega)
      (by rcases Nat.lt_or_ge n p with h' | h'
          · exact .inr ⟨rfl, by omega⟩
          · exact .inl h')
    exact ⟨f, h1⟩
  · rename_i h
    unfold almostCorrectAdder1
    rw [if_neg (by simp)]
    by_cases h1 : p = 1
    · subst h1
      obtain rfl : n = 0 := by omega
      rfl
    · have hlt : n < 0 + u32sub p 1 := by
        rcases Nat.eq_zero_or_pos p with rfl | hpos
        · rw [u32sub_zero_one]; omega
        · rw [u32sub_eq hpos hp]; omega
      rw [prefixLoop_ub _ 0 [] hlt (Nat.zero_le _) rfl]
      rfl

theorem C64_almost_correct_adder_2 (asserts : Bool) (n p : Nat) (hn : n < 2 ^ 31) (hp : p < 2 ^ 32) :
    if asserts = true ∧ ¬ (1 ≤ p ∧ p ≤ n) then
      almostCorrectAdder2 asserts n p = (.error .assertion : Except Fault (List (BDD m)))
    else if 1 ≤ n ∧ 1 ≤ p ∧ (n = 1 ∨ 2 ≤ p) then
      ∃ f : List (BDD m), almostCorrectAdder2 asserts n p = .ok f
    else almostCorrectAdder2 asserts n p = (.error .ub : Except Fault (List (BDD m))) := by
  split
  · rename_i h
    unfold almostCorrectAdder2
    rw [if_pos ⟨h.1, fun h' => h.2 ⟨h'.2, h'.1⟩⟩]
  · rename_i ha
    split
    · rename_i h
      obtain ⟨f, h1, _⟩ := almostCorrectAdder2_spec (m := m) asserts (n := n) (p := p) (by omega) hn
        (by omega) hp (fun h' => by by_contra hc; exact ha ⟨h', by omega⟩) h.2.2
      exact ⟨f, h1⟩
    · rename_i h
      unfold almostCorrectAdder2
      rw [if_neg (fun h' => ha ⟨h'.1, fun h'' => h'.2 ⟨h''.2, h''.1⟩⟩)]
      by_cases hp0 : p = 0
      · rw [if_pos hp0]
      rw [if_neg hp0]
      rcases Nat.eq_zero_or_pos n with rfl | hpos
      · rfl
      · obtain rfl : p = 1 := by omega
        rw [blockLoop_ub (by omega) (.inr (by rw [Nat.div_one, Nat.div_eq_of_lt (by omega)]))]
        rfl

theorem C64_gracefully_degrading_adder (n parts q : Nat) :
    if n = 1 ∨ (1 ≤ parts ∧ parts ≤ n) then
      ∃ f : List (BDD m), gracefullyDegradingAdder n parts q = .ok f
    else gracefullyDegradingAdder n parts q = (.error .ub : Except Fault (List (BDD m))) := by
  split
  · rename_i h
    obtain ⟨f, h1, h2⟩ := blockAdder_spec (m := m) (n := n) (parts := parts)
      (w := downFrom (u32sub q 1)) (by omega) (fun h2 => div_ne_zero' (by omega) (by omega))
    exact ⟨f, h1⟩
  · rename_i h
    unfold gracefullyDegradingAdder
    rcases Nat.eq_zero_or_pos n with rfl | hpos
    · rfl
    · rw [blockLoop_ub (by omega) (by
        rcases Nat.eq_zero_or_pos parts with h0 | h0
        · exact .inl h0
        · exact .inr (Nat.div_eq_of_lt (by omega)))]
      rfl

/-- The length of the sub adders is `(res + prev) mod 2^32`. -/
theorem C64_generic_accuracy_reconfigurable_adder (n res prev : Nat) (hn : n < 2 ^ 31)
    (hr : res < 2 ^ 32) (hp : prev < 2 ^ 32) :
    if 1 ≤ n ∧ 1 ≤ (res + prev) % 2 ^ 32 ∧ (res + prev) % 2 ^ 32 ≤ n + 1 ∧
      (2 ≤ n ∨ 2 ≤ (res + prev) % 2 ^ 32) ∧
      (res + prev < 2 ^ 32 ∨ n ≤ (res + prev) % 2 ^ 32 ∨ 2 ^ 31 < prev) then
      ∃ f : List (BDD m), genericAccuracyReconfigurableAdder n res prev = .ok f
    else genericAccuracyReconfigurableAdder n res prev =
      (.error .ub : Except Fault (List (BDD m))) :=
  gear_defined n res prev hn hr hp

/-- Undefined behaviour that no assertion catches: `almost_correct_adder_2(2, 1)`, a
`gracefully_degrading_adder` with no or too many partitions, and
`generic_accuracy_reconfigurable_adder` with empty or too long sub adders. -/
theorem C64_parameters_false :
    almostCorrectAdder2 true 2 1 = (.error .ub : Except Fault (List (BDD m))) ∧
    gracefullyDegradingAdder 4 0 1 = (.error .ub : Except Fault (List (BDD m))) ∧
    gracefullyDegradingAdder 4 5 1 = (.error .ub : Except Fault (List (BDD m))) ∧
    genericAccuracyReconfigurableAdder 4 0 0 = (.error .ub : Except Fault (List (BDD m))) ∧
    genericAccuracyReconfigurableAdder 4 3 3 = (.error .ub : Except Fault (List (BDD m))) ∧
    genericAccuracyReconfigurableAdder 1 1 0 = (.error .ub : Except Fault (List (BDD m))) := by
  refine ⟨?_, ?_, ?_, ?_, ?_, ?_⟩
  · simpa using C64_almost_correct_adder_2 (m := m) true 2 1 (by omega) (by omega)
  · simpa using C64_gracefully_degrading_adder (m := m) 4 0 1
  · simpa using C64_gracefully_degrading_adder (m := m) 4 5 1
  · simpa using C64_generic_accuracy_reconfigurable_adder (m := m) 4 0 0 (by omega) (by omega) (by omega)
  · simpa using C64_generic_accuracy_reconfigurable_adder (m := m) 4 3 3 (by omega) (by omega) (by omega)
  · simpa using C64_generic_accuracy_reconfigurable_adder (m := m) 1 1 0 (by omega) (by omega) (by omega)

/-! ## C65 `and_bdd`, `or_bdd`, `xor_bdd` -/

theorem C65_and_bdd (n : Nat) (x : Asg) :
    (andBdd n : BDD m).eval x = true ↔ ∀ i < n, x i = true := by
  unfold andBdd
  induction n with
  | zero => simp
  | succ n ih =>
    rw [List.range_succ, List.foldl_append, List.foldl_cons, List.foldl_nil, BDD.eval_and,
      Bool.and_eq_true, ih, BDD.eval_var]
    constructor
    · rintro ⟨h1, h2⟩ i hi
      rcases Nat.lt_or_eq_of_le (Nat.lt_succ_iff.mp hi) with h | rfl
      · exact h1 i h
      · exact h2
    · exact fun h => ⟨fun i hi => h i (by omega), h n (by omega)⟩

theorem C65_or_bdd (n : Nat) (x : Asg) :
    (orBdd n : BDD m).eval x = true ↔ ∃ i < n, x i = true := by
  unfold orBdd
  induction n with
  | zero => simp
  | succ n ih =>
    rw [List.range_succ, List.foldl_append, List.foldl_cons, List.foldl_nil, BDD.eval_or,
      Bool.or_eq_true, ih, BDD.eval_var]
    constructor
    · rintro (⟨i, hi, h⟩ | h)
      · exact ⟨i, by omega, h⟩
      · exact ⟨n, by omega, h⟩
    · rintro ⟨i, hi, h⟩
      rcases Nat.lt_or_eq_of_le (Nat.lt_succ_iff.mp hi) with h' | rfl
      · exact .inl ⟨i, h', h⟩
      · exact .inr h

/-- Parity: the number of set variables is odd. -/
theorem C65_xor_bdd (n : Nat) (x : Asg) :
    (xorBdd n : BDD m).eval x = true ↔ ((List.range n).filter (fun i => x i)).length % 2 = 1 := by
  unfold xorBdd
  induction n with
  | zero => simp
  | succ n ih =>
    rw [List.range_succ, List.foldl_append, List.foldl_cons, List.foldl_nil, BDD.eval_xor,
      BDD.eval_var, List.filter_append, List.length_append]
    generalize List.foldl _ _ _ = g at *
    cases hx : x n <;> cases hg : g.eval x <;> simp [hx, hg] at ih ⊢ <;> omega

/-- The three functions of no variables are constants; concrete diagrams otherwise. -/
example : (andBdd 0 : BDD .id) = .one ∧ (orBdd 0 : BDD .id) = .zero ∧
    (xorBdd 2 : BDD .id) = (BDD.var 0).xor (.var 1) ∧
    (andBdd 3 : BDD .id).eval (fun i => i < 3) = true ∧ (orBdd 3 : BDD .id).eval (fun i => i == 2) = true := by
  decide +kernel

end Verif

import Verif.SpecPrint
import Verif.Model.Print
import Verif.Proofs.Experiments
import Verif.Proofs.Helper

/-! # Lemmas about printed numbers and tables -/

namespace Verif

/-! ## Rounding to six digits -/

theorem roundEven_near {x : ℚ} (hx : 0 ≤ x) (z : ℤ) : |(roundEven x : ℚ) - x| ≤ |(z : ℚ) - x| := by
  have h1 := Nat.floor_le hx
  have h2 := Nat.lt_floor_add_one x
  set f := ⌊x⌋₊ with hf
  have hz : (z : ℚ) ≤ f ∨ (f : ℚ) + 1 ≤ z := by
    rcases le_or_gt z (f : ℤ) with h | h
    · left; exact_mod_cast h
    · right; exact_mod_cast h
  have low : x - f ≤ 1 / 2 → |(f : ℚ) - x| ≤ |(z : ℚ) - x| := fun h => by
    rw [abs_of_nonpos (by linarith)]
    rcases hz with hz | hz
    · rw [abs_of_nonpos (by linarith)]; linarith
    · rw [abs_of_nonneg (by linarith)]; linarith
  have high : 1 / 2 ≤ x - f → |((f + 1 : Nat) : ℚ) - x| ≤ |(z : ℚ) - x| := fun h => by
    push_cast
    rw [abs_of_nonneg (by linarith)]
    rcases hz with hz | hz
    · rw [abs_of_nonpos (by linarith)]; linarith
    · rw [abs_of_nonneg (by linarith)]; linarith
  unfold roundEven
  simp only [← hf]
  split_ifs with a b c
  · exact low a.le
  · exact high b.le
  · exact low (by linarith)
  · exact high (by linarith)

/-- The value of six digits with an exponent. -/
def sixValue (p : Nat × ℤ) : ℚ := p.1 * (10 : ℚ) ^ (p.2 - 5)

theorem sixOf_spec {a : ℚ} (ha : 0 < a) :
    100000 ≤ (sixOf a).1 ∧ (sixOf a).1 < 1000000 ∧ ClosestSix a (sixValue (sixOf a)) := by
  have h1 := Int.zpow_log_le_self (b := 10) (by norm_num) ha
  have h2 := Int.lt_zpow_succ_log_self (b := 10) (by norm_num) a
  push_cast at h1 h2
  set e := Int.log 10 a with he
  set u : ℚ := 10 ^ (e - 5) with hu
  have hu0 : 0 < u := zpow_pos (by norm_num) _
  have e1 : (10 : ℚ) ^ e = 100000 * u := by
    rw [hu, show e = (e - 5) + 5 by ring, zpow_add₀ (by norm_num)]; norm_num; ring
  have e2 : (10 : ℚ) ^ (e + 1) = 1000000 * u := by
    rw [hu, show e + 1 = (e - 5) + 6 by ring, zpow_add₀ (by norm_num)]; norm_num; ring
  rw [e1] at h1
  rw [e2] at h2
  set x := a / u with hx
  have hax : a = x * u := by rw [hx, div_mul_cancel₀ _ hu0.ne']
  have x1 : 100000 ≤ x := by rw [hx, le_div_iff₀ hu0]; exact h1
  have x2 : x < 1000000 := by rw [hx, div_lt_iff₀ hu0]; exact h2
  have x0 : 0 ≤ x := by linarith
  set d := roundEven x with hd
  have near := fun z => roundEven_near x0 z
  rw [← hd] at near
  have d1 : 100000 ≤ d := by
    by_contra h
    have h' : (d : ℚ) + 1 ≤ 100000 := by exact_mod_cast not_le.mp h
    have := near 100000
    push_cast at this
    rw [abs_of_nonpos (by linarith), abs_of_nonpos (by linarith)] at this
    linarith
  have d2 : d ≤ 1000000 := by
    by_contra h
    have h' : (1000000 : ℚ) + 1 ≤ d := by exact_mod_cast not_le.mp h
    have := near 1000000
    push_cast at this
    rw [abs_of_nonneg (by linarith), abs_of_nonneg (by linarith)] at this
    linarith
  have hval : sixValue (sixOf a) = d * u := by
    unfold sixOf
    simp only [← he, ← hu, ← hx, ← hd]
    split_ifs with h
    · rw [sixValue, h, hu]
      push_cast
      rw [show e + 1 - 5 = (e - 5) + 1 by ring, zpow_add_one₀ (by norm_num)]; ring
    · rfl
  have hrange : 100000 ≤ (sixOf a).1 ∧ (sixOf a).1 < 1000000 := by
    unfold sixOf
    simp only [← he, ← hu, ← hx, ← hd]
    split_ifs with h
    · norm_num
    · exact ⟨d1, by omega⟩
  refine ⟨hrange.1, hrange.2, ?_, ?_⟩
  · refine ⟨(sixOf a).1, (sixOf a).2 - 5, ?_, by simp [sixValue]⟩
    rw [abs_of_nonneg (by positivity)]
    exact_mod_cast hrange.2
  · rintro s ⟨k, j, hk, rfl⟩
    have scale : ∀ y : ℚ, |y * u - a| = |y - x| * u := fun y => by
      rw [hax, ← sub_mul, abs_mul, abs_of_pos hu0]
    rw [hval, scale]
    rcases le_or_gt (e - 5) j with hj | hj
    · obtain ⟨n, hn⟩ := Int.eq_ofNat_of_zero_le (by omega : 0 ≤ j - (e - 5))
      have : (k : ℚ) * 10 ^ j = ((k * 10 ^ n : ℤ) : ℚ) * u := by
        rw [show j = (e - 5) + n by omega, zpow_add₀ (by norm_num), ← hu, zpow_natCast]
        push_cast; ring
      rw [this, scale]
      exact mul_le_mul_of_nonneg_right (near _) hu0.le
    · have hs : (k : ℚ) * 10 ^ j ≤ 100000 * u := by
        have k1 : (k : ℚ) ≤ 10 ^ 6 := by exact_mod_cast (le_abs_self k).trans hk.le
        have p0 : (0 : ℚ) < 10 ^ j := zpow_pos (by norm_num) _
        have p1 : (10 : ℚ) ^ j * 10 ≤ u := by
          rw [hu, ← zpow_add_one₀ (by norm_num)]
          exact zpow_le_zpow_right₀ (by norm_num) (by omega)
        nlinarith
      have h5 := near 100000
      push_cast at h5
      rw [abs_of_nonpos (by linarith : (100000 : ℚ) - x ≤ 0)] at h5
      rw [abs_of_nonpos (by linarith : (k : ℚ) * 10 ^ j - a ≤ 0)]
      have h7 := mul_le_mul_of_nonneg_right h5 hu0.le
      linarith

/-! ## Reading digits -/

theorem digitsFrom_append (n : Nat) (s t : List Char) :
    digitsFrom n (s ++ t) = (digitsFrom n s).bind fun k => digitsFrom k t := by
  induction s generalizing n with
  | nil => rfl
  | cons c s ih =>
    simp only [List.cons_append, digitsFrom]
    cases digitVal c with
    | none => rfl
    | some d => exact ih _

theorem digitVal_digitChar {d : Nat} (h : d < 10) : digitVal (Nat.digitChar d) = some d := by
  interval_cases d <;> decide

theorem digitsFrom_digits (n : Nat) (ds : List Nat) (h : ∀ d ∈ ds, d < 10) :
    digitsFrom n (ds.map Nat.digitChar) = some (ds.foldl (fun n d => 10 * n + d) n) := by
  induction ds generalizing n with
  | nil => rfl
  | cons d ds ih =>
    simp only [List.map_cons, digitsFrom, digitVal_digitChar (h d (by simp)), Option.bind_some, List.foldl_cons]
    exact ih _ fun d hd => h d (by simp [hd])

theorem toDigits_ne_nil (n : Nat) : Nat.toDigits 10 n ≠ [] := by
  exact Nat.toDigits_ne_nil

theorem digitsFrom_toDigits (n : Nat) : digitsFrom 0 (Nat.toDigits 10 n) = some n := by
  induction n using Nat.strong_induction_on with
  | _ n ih =>
    rcases Nat.lt_or_ge n 10 with h | h
    · rw [Nat.toDigits_of_lt_base h]
      simp [digitsFrom, digitVal_digitChar h]
    · rw [Nat.toDigits_of_base_le (by norm_num) h, digitsFrom_append, ih _ (by omega)]
      simp only [Option.bind_some, digitsFrom, digitVal_digitChar (Nat.mod_lt n (by norm_num))]
      congr 1; omega

theorem readNat_toDigits (n : Nat) : readNat (Nat.toDigits 10 n) = some n := by
  rw [readNat, if_neg (toDigits_ne_nil n), digitsFrom_toDigits]

/-- Only digits. -/
def AllDigits (s : List Char) : Prop := ∀ c ∈ s, (digitVal c).isSome

theorem digitsFrom_all {s : List Char} (h : AllDigits s) (n : Nat) : ∃ v, digitsFrom n s = some v := by
  induction s generalizing n with
  | nil => exact ⟨n, rfl⟩
  | cons c s ih =>
    obtain ⟨d, hd⟩ := Option.isSome_iff_exists.mp (h c (by simp))
    simp only [digitsFrom, hd, Option.bind_some]
    exact ih (fun c hc => h c (by simp [hc])) _

theorem digitsFrom_add {s : List Char} {n v : Nat} (h : digitsFrom 0 s = some v) :
    digitsFrom n s = some (n * 10 ^ s.length + v) := by
  have key : ∀ (s : List Char) (n k v : Nat), digitsFrom n s = some v →
      digitsFrom (n + k) s = some (k * 10 ^ s.length + v) := by
    intro s
    induction s with
    | nil => intro n k v h; cases h; simp [digitsFrom, Nat.add_comm]
    | cons c s ih =>
      intro n k v h
      simp only [digitsFrom] at h ⊢
      cases hd : digitVal c with
      | none => rw [hd] at h; cases h
      | some d =>
        rw [hd] at h
        simp only [Option.bind_some] at h ⊢
        have := ih _ (10 * k) _ h
        rw [show 10 * (n + k) + d = 10 * n + d + 10 * k by ring, this]
        congr 1
        rw [List.length_cons, pow_succ]; ring
  have := key s 0 n v h
  simpa using this

theorem dropZeros_spec {s : List Char} {v n : Nat} (h : digitsFrom n s = some v) :
    ∃ w, digitsFrom n (dropZeros s) = some w ∧ (dropZeros s).length ≤ s.length ∧
      v = w * 10 ^ (s.length - (dropZeros s).length) := by
  induction s generalizing n with
  | nil => exact ⟨v, h, le_refl _, by simp [dropZeros]⟩
  | cons c s ih =>
    simp only [digitsFrom] at h
    cases hd : digitVal c with
    | none => rw [hd] at h; cases h
    | some d =>
      rw [hd] at h
      simp only [Option.bind_some] at h
      obtain ⟨w, h1, h2, h3⟩ := ih h
      by_cases hz : dropZeros s = [] ∧ c = '0'
      · rw [dropZeros, if_pos hz]
        obtain ⟨hz1, rfl⟩ := hz
        rw [hz1] at h1 h3
        obtain rfl : d = 0 := by simpa [digitVal] using hd.symm
        simp only [digitsFrom, Option.some.injEq] at h1
        refine ⟨n, rfl, by simp, ?_⟩
        rw [h3, ← h1]
        simp [pow_succ]; ring
      · rw [dropZeros, if_neg hz]
        refine ⟨w, by simp [digitsFrom, hd, h1], by simpa using h2, ?_⟩
        simpa using h3

theorem allDigits_ne {s : List Char} (h : AllDigits s) {c : Char} (hc : digitVal c = none) : c ∉ s := fun hm => by
  have := h c hm
  simp [hc] at this

theorem AllDigits.append {s t : List Char} (h : AllDigits s) (h' : AllDigits t) : AllDigits (s ++ t) := fun c hc => by
  rcases List.mem_append.mp hc with hc | hc
  · exact h c hc
  · exact h' c hc

theorem AllDigits.sub {s t : List Char} (h : AllDigits s) (h' : t ⊆ s) : AllDigits t := fun c hc => h c (h' hc)

theorem dropZeros_subset (s : List Char) : dropZeros s ⊆ s := by
  induction s with
  | nil => simp [dropZeros]
  | cons c s ih =>
    rw [dropZeros]
    split_ifs
    · simp
    · intro x hx
      rcases List.mem_cons.mp hx with rfl | hx
      · simp
      · simp [ih hx]

theorem allDigits_toDigits (n : Nat) : AllDigits (Nat.toDigits 10 n) := by
  induction n using Nat.strong_induction_on with
  | _ n ih =>
    rcases Nat.lt_or_ge n 10 with h | h
    · rw [Nat.toDigits_of_lt_base h]
      intro c hc
      obtain rfl : c = Nat.digitChar n := by simpa using hc
      rw [digitVal_digitChar h]; rfl
    · rw [Nat.toDigits_of_base_le (by norm_num) h]
      refine (ih _ (by omega)).append fun c hc => ?_
      obtain rfl : c = Nat.digitChar (n % 10) := by simpa using hc
      rw [digitVal_digitChar (Nat.mod_lt n (by norm_num))]; rfl

/-- Splitting at a character that is not in the first part. -/
theorem takeWhile_ne {c : Char} {s t : List Char} (h : c ∉ s) :
    (s ++ c :: t).takeWhile (· ≠ c) = s ∧ (s ++ c :: t).dropWhile (· ≠ c) = c :: t := by
  induction s with
  | nil => simp
  | cons d s ih =>
    have h1 : d ≠ c := fun e => h (by simp [e])
    obtain ⟨a, b⟩ := ih fun hm => h (by simp [hm])
    constructor
    · simp only [List.cons_append, List.takeWhile_cons, h1, ne_eq, not_false_eq_true, decide_true, if_true] at a ⊢
      rw [a]
    · simp only [List.cons_append, List.dropWhile_cons, h1, ne_eq, not_false_eq_true, decide_true, if_true] at b ⊢
      rw [b]

theorem dropWhile_none {c : Char} {s : List Char} (h : c ∉ s) : s.dropWhile (· ≠ c) = [] := by
  induction s with
  | nil => rfl
  | cons d s ih =>
    have h1 : d ≠ c := fun e => h (by simp [e])
    rw [List.dropWhile_cons, if_pos (by simpa using h1)]
    exact ih fun hm => h (by simp [hm])

theorem readFixed_withPoint {whole frac : List Char} {i f : Nat} (hw : whole ≠ []) (hi : digitsFrom 0 whole = some i)
    (hf : digitsFrom 0 frac = some f) (hwd : AllDigits whole) :
    readFixed (withPoint whole frac) = some ((i : ℚ) + f / 10 ^ frac.length) := by
  obtain ⟨w, h1, h2, h3⟩ := dropZeros_spec hf
  have hpoint : '.' ∉ whole := allDigits_ne hwd (by decide)
  unfold withPoint
  split_ifs with hz
  · rw [hz] at h1 h3
    simp only [digitsFrom, Option.some.injEq] at h1
    subst h1
    simp only [zero_mul] at h3
    rw [readFixed, dropWhile_none hpoint]
    simp [readNat, hw, hi, h3]
  · obtain ⟨a, b⟩ := takeWhile_ne (t := dropZeros frac) hpoint
    rw [readFixed, b]
    simp only [a, readNat, if_neg hw, hi, if_neg hz, h1, Option.bind_some, Option.map_some, Option.some.injEq,
      add_right_inj]
    rw [div_eq_div_iff (by positivity) (by positivity), h3]
    push_cast
    rw [mul_assoc, ← pow_add]
    congr 2
    omega

theorem sixChars_all (d : Nat) : AllDigits (sixChars d) := by
  intro c hc
  obtain ⟨k, hk, rfl⟩ := List.mem_map.mp hc
  have : k < 10 := by
    simp only [List.mem_cons, List.not_mem_nil, or_false] at hk
    omega
  rw [digitVal_digitChar this]; rfl

theorem sixChars_val {d : Nat} (h : d < 1000000) : digitsFrom 0 (sixChars d) = some d := by
  rw [sixChars, digitsFrom_digits _ _ (by simp; omega)]
  simp only [List.foldl_cons, List.foldl_nil, Option.some.injEq]
  omega

theorem replicate_zero_val (k : Nat) : digitsFrom 0 (List.replicate k '0') = some 0 := by
  induction k with
  | zero => rfl
  | succ k ih => simpa [List.replicate_succ, digitsFrom, digitVal] using ih

/-- The digits in two parts. -/
theorem split_val {s : List Char} {v : Nat} (h : digitsFrom 0 s = some v) (hs : AllDigits s) (k : Nat) :
    ∃ i f, digitsFrom 0 (s.take k) = some i ∧ digitsFrom 0 (s.drop k) = some f ∧
      v = i * 10 ^ (s.drop k).length + f := by
  obtain ⟨i, hi⟩ := digitsFrom_all (hs.sub (List.take_subset k s)) 0
  obtain ⟨f, hf⟩ := digitsFrom_all (hs.sub (List.drop_subset k s)) 0
  refine ⟨i, f, hi, hf, ?_⟩
  rw [← List.take_append_drop k s, digitsFrom_append, hi, Option.bind_some, digitsFrom_add hf] at h
  exact (Option.some.inj h).symm

theorem withPoint_chars {whole frac : List Char} (hw : AllDigits whole) (hf : AllDigits frac) :
    ∀ c ∈ withPoint whole frac, c = '.' ∨ (digitVal c).isSome := by
  intro c hc
  unfold withPoint at hc
  split_ifs at hc
  · exact .inr (hw c hc)
  · rcases List.mem_append.mp hc with hc | hc
    · exact .inr (hw c hc)
    · rcases List.mem_cons.mp hc with hc | hc
      · exact .inl hc
      · exact .inr (hf c (dropZeros_subset frac hc))

theorem readExp_expText (e : ℤ) : ∃ x, expText e = 'e' :: x ∧ readExp x = some e := by
  have pad : readNat ((if e.natAbs < 10 then ['0'] else []) ++ Nat.toDigits 10 e.natAbs) = some e.natAbs := by
    rw [readNat, if_neg (by simp)]
    split_ifs
    · simpa [digitsFrom, digitVal] using digitsFrom_toDigits e.natAbs
    · simpa using digitsFrom_toDigits e.natAbs
  refine ⟨_, rfl, ?_⟩
  by_cases h : e < 0
  · simp only [h, if_true]
    show (readNat ((if e.natAbs < 10 then ['0'] else []) ++ Nat.toDigits 10 e.natAbs)).map _ = _
    rw [pad]
    simp only [Option.map_some, Option.some.injEq]
    omega
  · simp only [h, if_false]
    show (readNat ((if e.natAbs < 10 then ['0'] else []) ++ Nat.toDigits 10 e.natAbs)).map _ = _
    rw [pad]
    simp only [Option.map_some, Option.some.injEq]
    omega

theorem readUnsigned_formatPos {a : ℚ} (ha : 0 < a) : readUnsigned (formatPos a) = some (sixValue (sixOf a)) := by
  obtain ⟨h1, h2, -⟩ := sixOf_spec ha
  have hv := sixChars_val h2
  have hall := sixChars_all (sixOf a).1
  unfold formatPos
  set d := (sixOf a).1 with hd
  set e := (sixOf a).2 with he
  have hsv : sixValue (sixOf a) = d * (10 : ℚ) ^ (e - 5) := rfl
  rw [hsv]
  have hlen : (sixChars d).length = 6 := rfl
  have noE : ∀ {w f : List Char}, AllDigits w → AllDigits f → 'e' ∉ withPoint w f := fun hw hf hm => by
    rcases withPoint_chars hw hf _ hm with h | h
    · exact absurd h (by decide)
    · exact absurd h (by decide)
  have takeNe : ∀ k, (sixChars d).take (k + 1) ≠ [] := fun k => by simp [sixChars]
  by_cases c1 : 0 ≤ e ∧ e < 6
  · simp only [if_pos c1]
    obtain ⟨i, f, hi, hf, hif⟩ := split_val hv hall (e.toNat + 1)
    rw [readUnsigned, dropWhile_none (noE (hall.sub (List.take_subset _ _)) (hall.sub (List.drop_subset _ _)))]
    simp only
    rw [readFixed_withPoint (takeNe _) hi hf (hall.sub (List.take_subset _ _)), Option.some.injEq]
    rw [List.length_drop, hlen] at hif ⊢
    rw [hif]
    obtain ⟨n, hn⟩ := Int.eq_ofNat_of_zero_le c1.1
    have hn6 : n < 6 := by omega
    rw [hn]
    simp only [Int.toNat_natCast]
    obtain ⟨k, hk⟩ : ∃ k, k = 6 - (n + 1) := ⟨_, rfl⟩
    rw [← hk, show (n : ℤ) - 5 = -(k : ℤ) by omega, zpow_neg, zpow_natCast]
    push_cast
    field_simp
  · simp only [if_neg c1]
    by_cases c2 : -4 ≤ e ∧ e < 0
    · simp only [if_pos c2]
      have hz : AllDigits (List.replicate (-e - 1).toNat '0') := fun c hc => by
        rw [List.eq_of_mem_replicate hc]; decide
      have h0 : AllDigits ['0'] := fun c hc => by
        obtain rfl : c = '0' := by simpa using hc
        decide
      rw [readUnsigned, dropWhile_none (noE h0 (hz.append hall))]
      simp only
      have hf : digitsFrom 0 (List.replicate (-e - 1).toNat '0' ++ sixChars d) = some d := by
        rw [digitsFrom_append, replicate_zero_val, Option.bind_some, hv]
      rw [readFixed_withPoint (by simp) (i := 0) (by decide) hf h0, Option.some.injEq, List.length_append, hlen,
        List.length_replicate]
      rw [show e - 5 = -(((-e - 1).toNat + 6 : Nat) : ℤ) by omega, zpow_neg, zpow_natCast]
      simp [div_eq_mul_inv]
    · simp only [if_neg c2]
      obtain ⟨i, f, hi, hf, hif⟩ := split_val hv hall 1
      obtain ⟨x, hx, hx'⟩ := readExp_expText e
      rw [hx]
      obtain ⟨t1, t2⟩ := takeWhile_ne (t := x) (noE (hall.sub (List.take_subset 1 _)) (hall.sub (List.drop_subset 1 _)))
      rw [readUnsigned, t2]
      simp only
      rw [t1, readFixed_withPoint (takeNe 0) hi hf (hall.sub (List.take_subset _ _)), hx']
      simp only [Option.bind_some, Option.map_some, Option.some.injEq]
      rw [List.length_drop, hlen] at hif ⊢
      rw [hif, zpow_sub₀ (by norm_num)]
      push_cast
      norm_num
      ring

/-- The characters of a number. -/
def NumberChar (c : Char) : Prop := c ∈ "-+.e".toList ∨ (digitVal c).isSome

theorem AllDigits.number {s : List Char} (h : AllDigits s) : ∀ c ∈ s, NumberChar c := fun c hc => .inr (h c hc)

theorem formatPos_chars (a : ℚ) : ∀ c ∈ formatPos a, NumberChar c := by
  have hall := sixChars_all (sixOf a).1
  have wp : ∀ {w f : List Char}, AllDigits w → AllDigits f → ∀ c ∈ withPoint w f, NumberChar c := fun hw hf c hc => by
    rcases withPoint_chars hw hf c hc with rfl | h
    · exact .inl (by decide)
    · exact .inr h
  have hz : ∀ k, AllDigits (List.replicate k '0') := fun k c hc => by
    rw [List.eq_of_mem_replicate hc]; decide
  have h0 : AllDigits ['0'] := hz 1
  intro c hc
  unfold formatPos at hc
  simp only at hc
  split_ifs at hc
  · exact wp (hall.sub (List.take_subset _ _)) (hall.sub (List.drop_subset _ _)) c hc
  · exact wp h0 ((hz _).append hall) c hc
  · rcases List.mem_append.mp hc with hc | hc
    · exact wp (hall.sub (List.take_subset _ _)) (hall.sub (List.drop_subset _ _)) c hc
    · unfold expText at hc
      rcases List.mem_append.mp hc with hc | hc
      · left
        split_ifs at hc <;> simp at hc <;> rcases hc with rfl | rfl <;> decide
      · rcases List.mem_append.mp hc with hc | hc
        · right
          split_ifs at hc
          · exact h0 c hc
          · simp at hc
        · exact .inr (allDigits_toDigits _ c hc)

theorem formatG_chars (q : ℚ) : ∀ c ∈ formatG q, NumberChar c := by
  intro c hc
  unfold formatG at hc
  split_ifs at hc
  · obtain rfl : c = '0' := by simpa using hc
    exact .inr (by decide)
  · rcases List.mem_cons.mp hc with rfl | hc
    · exact .inl (by decide)
    · exact formatPos_chars _ c hc
  · exact formatPos_chars _ c hc

theorem withPoint_head {w f : List Char} {c : Char} {w' : List Char} (hw : w = c :: w') :
    ∃ r, withPoint w f = c :: r := by
  unfold withPoint
  split_ifs
  · exact ⟨w', hw⟩
  · exact ⟨w' ++ '.' :: dropZeros f, by rw [hw]; rfl⟩

/-- A positive number starts with a digit. -/
theorem formatPos_head (a : ℚ) : ∃ c r, formatPos a = c :: r ∧ (digitVal c).isSome := by
  have hall := sixChars_all (sixOf a).1
  have hd : (digitVal (Nat.digitChar ((sixOf a).1 / 100000 % 10))).isSome := hall _ (by simp [sixChars])
  unfold formatPos
  simp only
  split_ifs
  · obtain ⟨r, hr⟩ := withPoint_head (f := (sixChars (sixOf a).1).drop ((sixOf a).2.toNat + 1))
      (w := (sixChars (sixOf a).1).take ((sixOf a).2.toNat + 1)) rfl
    exact ⟨_, r, hr, hd⟩
  · obtain ⟨r, hr⟩ := withPoint_head (w := ['0']) (f := List.replicate (-(sixOf a).2 - 1).toNat '0' ++
      sixChars (sixOf a).1) rfl
    exact ⟨_, r, hr, by decide⟩
  · obtain ⟨r, hr⟩ := withPoint_head (f := (sixChars (sixOf a).1).drop 1)
      (w := (sixChars (sixOf a).1).take 1) rfl
    exact ⟨_, r ++ expText (sixOf a).2, by rw [hr]; rfl, hd⟩

theorem readDecimal_formatPos {a : ℚ} (ha : 0 < a) : readDecimal (formatPos a) = some (sixValue (sixOf a)) := by
  obtain ⟨c, r, h, hc⟩ := formatPos_head a
  have hne : c ≠ '-' := by rintro rfl; revert hc; decide
  have := readUnsigned_formatPos ha
  rw [h] at this ⊢
  unfold readDecimal
  split
  · rename_i s heq
    exact absurd (List.cons.inj heq).1 hne
  · exact this

theorem closestSix_neg {q r : ℚ} (h : ClosestSix q r) : ClosestSix (-q) (-r) := by
  have neg : ∀ s, SixDigits s → SixDigits (-s) := by
    rintro s ⟨k, e, h1, rfl⟩
    exact ⟨-k, e, by rwa [abs_neg], by push_cast; ring⟩
  refine ⟨neg r h.1, fun s hs => ?_⟩
  have := h.2 (-s) (neg s hs)
  rw [show -r - -q = -(r - q) by ring, abs_neg]
  rwa [show -s - q = -(s - -q) by ring, abs_neg] at this

/-- Reading a printed number. -/
theorem formatG_reads (q : ℚ) : ∃ r, readDecimal (formatG q) = some r ∧ ClosestSix q r := by
  rcases lt_trichotomy q 0 with h | rfl | h
  · have h' : 0 < -q := by linarith
    refine ⟨-sixValue (sixOf (-q)), ?_, ?_⟩
    · rw [formatG, if_neg h.ne, if_pos h]
      show (readUnsigned _).map _ = _
      rw [readUnsigned_formatPos h']; rfl
    · simpa using closestSix_neg (sixOf_spec h').2.2
  · exact ⟨0, by decide +kernel, ⟨0, 0, by norm_num, by norm_num⟩, fun s _ => by simp⟩
  · refine ⟨sixValue (sixOf q), ?_, (sixOf_spec h).2.2⟩
    rw [formatG, if_neg h.ne', if_neg (not_lt.mpr h.le)]
    exact readDecimal_formatPos h

/-! ## Closest numbers -/

theorem SixDigits.gap {r b : ℚ} (hr : SixDigits r) (hb : SixDigits b) (h0 : 0 < r) (h1 : r < b) : r / 10 ^ 6 ≤ b - r := by
  obtain ⟨k, e, hk, rfl⟩ := hr
  obtain ⟨l, f, hl, rfl⟩ := hb
  have pe : (0 : ℚ) < 10 ^ e := zpow_pos (by norm_num) _
  have pf : (0 : ℚ) < 10 ^ f := zpow_pos (by norm_num) _
  have hkq : (k : ℚ) ≤ 10 ^ 6 := by exact_mod_cast (le_abs_self k).trans hk.le
  have hlq : (l : ℚ) ≤ 10 ^ 6 := by exact_mod_cast (le_abs_self l).trans hl.le
  have step : ∀ {z : ℤ} {u : ℚ}, 0 < u → 0 < (z : ℚ) * u → u ≤ z * u := fun {z u} hu hz => by
    have : (0 : ℚ) < z := by
      by_contra hcon
      have := mul_nonpos_of_nonpos_of_nonneg (not_lt.mp hcon) hu.le
      linarith
    have : 1 ≤ z := by exact_mod_cast this
    exact le_mul_of_one_le_left hu.le (by exact_mod_cast this)
  rcases le_total e f with hef | hef
  · obtain ⟨n, hn⟩ := Int.eq_ofNat_of_zero_le (by omega : 0 ≤ f - e)
    have ef : (10 : ℚ) ^ f = 10 ^ n * 10 ^ e := by
      rw [show f = (n : ℤ) + e by omega, zpow_add₀ (by norm_num), zpow_natCast]
    have hd : (l : ℚ) * 10 ^ f - k * 10 ^ e = ((l * 10 ^ n - k : ℤ) : ℚ) * 10 ^ e := by
      rw [ef]; push_cast; ring
    have := step (z := l * 10 ^ n - k) pe (by rw [← hd]; linarith)
    rw [hd]
    refine le_trans ?_ this
    rw [div_le_iff₀ (by norm_num)]
    nlinarith
  · obtain ⟨n, hn⟩ := Int.eq_ofNat_of_zero_le (by omega : 0 ≤ e - f)
    have ef : (10 : ℚ) ^ e = 10 ^ n * 10 ^ f := by
      rw [show e = (n : ℤ) + f by omega, zpow_add₀ (by norm_num), zpow_natCast]
    have hd : (l : ℚ) * 10 ^ f - k * 10 ^ e = ((l - k * 10 ^ n : ℤ) : ℚ) * 10 ^ f := by
      rw [ef]; push_cast; ring
    have := step (z := l - k * 10 ^ n) pf (by rw [← hd]; linarith)
    rw [hd]
    refine le_trans ?_ this
    rw [div_le_iff₀ (by norm_num)]
    have : (l : ℚ) * 10 ^ f ≤ 10 ^ 6 * 10 ^ f := mul_le_mul_of_nonneg_right hlq pf.le
    linarith

theorem ClosestSix.mono {q q' r r' : ℚ} (h : ClosestSix q r) (h' : ClosestSix q' r') (hq : q < q') : r ≤ r' := by
  by_contra hcon
  have hlt := not_le.mp hcon
  have h1 := h.2 r' h'.1
  have h2 := h'.2 r h.1
  have m1 : r + r' ≤ 2 * q := by
    by_contra hc
    rcases le_or_gt r q with a | a
    · linarith
    · rw [abs_of_pos (by linarith)] at h1
      rcases le_or_gt q r' with b | b
      · rw [abs_of_nonneg (by linarith)] at h1; linarith
      · rw [abs_of_neg (by linarith)] at h1; linarith
  have m2 : 2 * q' ≤ r + r' := by
    by_contra hc
    rcases le_or_gt q' r' with a | a
    · linarith
    · rw [abs_of_neg (by linarith)] at h2
      rcases le_or_gt r q' with b | b
      · rw [abs_of_nonpos (by linarith)] at h2; linarith
      · rw [abs_of_pos (by linarith)] at h2; linarith
  linarith

theorem ClosestSix.exact {q r : ℚ} (hq : SixDigits q) (h : ClosestSix q r) : r = q := by
  have := h.2 q hq
  rw [sub_self, abs_zero] at this
  exact sub_eq_zero.mp (abs_eq_zero.mp (le_antisymm this (abs_nonneg _)))

theorem closestSix_self {q : ℚ} (hq : SixDigits q) : ClosestSix q q :=
  ⟨hq, fun s _ => by rw [sub_self, abs_zero]; exact abs_nonneg _⟩

theorem ClosestSix.le {q r b : ℚ} (h : ClosestSix q r) (hb : SixDigits b) (hq : q ≤ b) : r ≤ b := by
  rcases hq.eq_or_lt with rfl | hlt
  · exact (h.exact hb).le
  · exact h.mono (closestSix_self hb) hlt

theorem exists_closestSix (q : ℚ) : ∃ r, ClosestSix q r := let ⟨r, _, h⟩ := formatG_reads q; ⟨r, h⟩

/-- A number with six digits is the closest to every number in its neighbourhood. -/
theorem closestSix_near {q b r : ℚ} (hb : SixDigits b) (h0 : 0 < b) (hq : |q - b| * 10 ^ 7 ≤ b) (h : ClosestSix q r) :
    r = b := by
  have h1 := h.2 b hb
  rw [abs_sub_comm b q] at h1
  have h2 : |r - b| ≤ 2 * |q - b| := by
    calc |r - b| = |(r - q) + (q - b)| := by ring_nf
      _ ≤ |r - q| + |q - b| := abs_add_le _ _
      _ ≤ 2 * |q - b| := by linarith
  rcases lt_trichotomy r b with hlt | he | hgt
  · rw [abs_of_neg (by linarith)] at h2
    have := h.1.gap hb (by linarith) hlt
    linarith
  · exact he
  · rw [abs_of_pos (by linarith)] at h2
    have := hb.gap h.1 h0 hgt
    linarith

/-- The error of a closest number. -/
theorem ClosestSix.error {q r : ℚ} (h : ClosestSix q r) : |r - q| ≤ |q| * (5 / 10 ^ 6) := by
  have pos : ∀ {a r : ℚ}, 0 < a → ClosestSix a r → |r - a| ≤ a * (5 / 10 ^ 6) := fun {a r} ha h => by
    obtain ⟨h1, h2, h3⟩ := sixOf_spec ha
    have e1 := Int.zpow_log_le_self (b := 10) (by norm_num) ha
    push_cast at e1
    set e := Int.log 10 a
    have hu0 : (0 : ℚ) < 10 ^ (e - 5) := zpow_pos (by norm_num) _
    have e2 : (10 : ℚ) ^ e = 100000 * 10 ^ (e - 5) := by
      rw [show e = (e - 5) + 5 by ring, zpow_add₀ (by norm_num)]; norm_num; ring
    set u : ℚ := 10 ^ (e - 5) with hu
    have hx0 : 0 ≤ a / u := by positivity
    have d1 : |((⌊a / u + 1 / 2⌋ : ℤ) : ℚ) - a / u| ≤ 1 / 2 := by
      have f1 := Int.floor_le (a / u + 1 / 2)
      have f2 := Int.lt_floor_add_one (a / u + 1 / 2)
      rw [abs_le]; constructor <;> linarith
    have d2 := roundEven_near hx0 ⌊a / u + 1 / 2⌋
    have hs : SixDigits (sixValue (sixOf a)) := h3.1
    have h4 := h.2 _ hs
    have h5 : |sixValue (sixOf a) - a| ≤ u / 2 := by
      have hval : sixValue (sixOf a) = roundEven (a / u) * u := by
        unfold sixOf
        dsimp only
        split_ifs with hc
        · rw [show roundEven (a / u) = 1000000 from hc, sixValue, hu]
          push_cast
          rw [show Int.log 10 a + 1 - 5 = (e - 5) + 1 by ring, zpow_add_one₀ (by norm_num)]; ring
        · rfl
      have : sixValue (sixOf a) - a = (roundEven (a / u) - a / u) * u := by
        rw [hval, sub_mul, div_mul_cancel₀ _ hu0.ne']
      rw [this, abs_mul, abs_of_pos hu0]
      have := mul_le_mul_of_nonneg_right (d2.trans d1) hu0.le
      linarith
    rw [e2] at e1
    linarith
  rcases lt_trichotomy q 0 with hq | rfl | hq
  · have := pos (by linarith : 0 < -q) (closestSix_neg h)
    rw [abs_of_neg hq]
    rwa [show -r - -q = -(r - q) by ring, abs_neg] at this
  · have : r = 0 := h.exact ⟨0, 0, by norm_num, by norm_num⟩
    simp [this]
  · rw [abs_of_pos hq]
    exact pos hq h

/-! ## Tables -/

theorem pieces_none {sep : Char} {s : List Char} (h : sep ∉ s) : pieces sep s = [s] := by
  induction s with
  | nil => rfl
  | cons c s ih =>
    rw [pieces, if_neg (fun e => h (by simp [e])), ih fun hm => h (by simp [hm])]

theorem pieces_cons {sep : Char} {s : List Char} (t : List Char) (h : sep ∉ s) :
    pieces sep (s ++ sep :: t) = s :: pieces sep t := by
  induction s with
  | nil => simp [pieces]
  | cons c s ih =>
    rw [List.cons_append, pieces, if_neg (fun e => h (by simp [e])), ih fun hm => h (by simp [hm])]

theorem pieces_ne_nil (sep : Char) (s : List Char) : pieces sep s ≠ [] := by
  cases s with
  | nil => simp [pieces]
  | cons c s =>
    rw [pieces]
    split_ifs
    · simp
    · split <;> simp

theorem readLines_nil : readLines [] = some [] := by decide

theorem readLines_cons {l s : List Char} {ls : List (List Char)} (h : '\n' ∉ l) (hs : readLines s = some ls) :
    readLines (l ++ '\n' :: s) = some (l :: ls) := by
  unfold readLines at hs ⊢
  simp only [pieces_cons _ h] at hs ⊢
  have hne := pieces_ne_nil '\n' s
  split_ifs at hs with hl
  cases hs
  rw [List.getLast?_cons_of_ne_nil hne, if_pos hl, List.dropLast_cons_of_ne_nil hne]

end Verif

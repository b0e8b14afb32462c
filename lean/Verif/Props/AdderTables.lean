import Verif.Props.AdderSquare
import Verif.Proofs.Experiments

/-! # C106 the experiments on approximate adders -/

namespace Verif

variable {m : Mgr}

/-- The metrics of the table do not use the random numbers. -/
theorem table_metric {met : BenchMetric} (hmet : met ∈ adderTableMetrics) (N N' : Nat) (rs rs' : Nat → Nat → Nat → Nat)
    (fuel fuel' : Nat) (f g : List (BDD m)) :
    computeErrorMetric N rs fuel f g met = computeErrorMetric N' rs' fuel' f g met := by
  simp only [adderTableMetrics, List.mem_cons, List.not_mem_nil, or_false] at hmet
  rcases hmet with rfl | rfl | rfl | rfl | rfl | rfl | rfl | rfl <;> rfl

/-- One measurement of the table: the sum and the named adder are built and measured with the named metric. The two
relative errors are approximations, the average one is relative to the approximate sum (C85); the mean square is
rounded down (C105). -/
theorem C106_measure (asserts : Bool) (a : ApproxAdder) (n p q : Nat) (h : AdderLegal n p q a) (hn : 4 * n ≤ 252)
    (met : BenchMetric) (hmet : met ∈ adderTableMetrics) (rs : Nat → Nat → Nat → Nat) (fuel : Nat) :
    ∃ f g : List (BDD m), ∃ v, measureAdder asserts rs fuel met a n p q = .ok (f, g, v) ∧
      (∀ x, uAt f x = opA n x + opB n x) ∧
      (∀ x, uAt g x + droppedAt n (adderStart n p q a) x = opA n x + opB n x) ∧
      (met = .averageRelativeApprox → IsBenchMetric (2 * n) g f met v) ∧
      (met = .meanSquared → v = countedSquareDrop (adderStart n p q a) n ∧
        v ≤ mean (2 * n) (fun x => absErrAt f g x ^ 2)) ∧
      (met ≠ .averageRelativeApprox → met ≠ .meanSquared → IsBenchMetric (2 * n) f g met v) := by
  obtain ⟨f, h1, h2⟩ := regularAdder_spec (m := m) n
  obtain ⟨g, g1, g2, g3, g4, -⟩ := C86_adder (m := m) asserts a n p q h
  have hf : ∀ x, uAt f x = opA n x + opB n x := fun x => (h2.exact_iff x).mpr (fun _ _ h => h)
  have hg : ∀ x, uAt g x + droppedAt n (adderStart n p q a) x = opA n x + opB n x := fun x => (g4 x).2.2.2.1
  have hl : f.length = g.length := by rw [h2.len, g2]
  have hl1 : f.length = n + 1 := h2.len
  have hr : BenchRange m (2 * n) f.length met := by
    rw [hl1]
    simp only [adderTableMetrics, List.mem_cons, List.not_mem_nil, or_false] at hmet
    rcases hmet with rfl | rfl | rfl | rfl | rfl | rfl | rfl | rfl <;> simp only [BenchRange] <;> omega
  have hbuild : ∀ v, computeErrorMetric (2 * n) rs fuel f g met = .ok v →
      measureAdder asserts rs fuel met a n p q = .ok (f, g, v) := fun v hv => by
    simp only [measureAdder, h1, g1, hv, bind, Except.bind]
  by_cases ha : met = .averageRelativeApprox
  · subst ha
    obtain ⟨v, v1, v2⟩ := C85_average_relative_partial (2 * n) f g rs fuel hl h2.fits g3 _ (Or.inl rfl) hr
    exact ⟨f, g, v, hbuild v v1, hf, hg, fun _ => v2, (fun e => by cases e), fun e => absurd rfl e⟩
  · by_cases hs : met = .meanSquared
    · subst hs
      obtain ⟨f', g', e1, e2, e3, e4, e5, -⟩ := C105_mean_squared_error (m := m) asserts a n p q h hn
      obtain rfl : f = f' := by rw [h1] at e1; exact Except.ok.inj e1
      obtain rfl : g = g' := by rw [g1] at e2; exact Except.ok.inj e2
      refine ⟨f, g, _, hbuild _ e4, hf, hg, (fun e => by cases e), fun _ => ⟨rfl, ?_⟩, fun _ e => absurd rfl e⟩
      refine le_trans e5 (le_of_eq ?_)
      rw [← e3]
      refine mean_congr _ fun x => ?_
      unfold absErrAt
      push_cast
      rw [sq_abs]
    · have hb : met ≠ .worstCaseRelativeBinarySearch := by rintro rfl; revert hmet; decide
      have hd : met ≠ .averageRelativeAdd := by rintro rfl; revert hmet; decide
      obtain ⟨v, v1, v2⟩ := C85_metric_partial (2 * n) f g met (fun _ _ _ => 1) (fun _ _ _ => by decide) _ (le_refl _)
        hl h2.fits g3 hr hb hs ha hd
      rw [table_metric hmet _ (2 * n) _ rs _ fuel] at v1
      exact ⟨f, g, v, hbuild v v1, hf, hg, fun e => absurd e ha, fun e => absurd e hs, fun _ _ => v2⟩

/-- The figures that are known in closed form, for an adder of `n` bits with the starting positions `s`. -/
def adderFigure (s : Nat → Nat) (n : Nat) : BenchMetric → Option ℚ
  | .worstCase => some (worstDrop s n)
  | .averageCase => some ((2 ^ s n - 1) / 2)
  | .meanSquared => some (countedSquareDrop s n)
  | .errorRate => some (1 - (cleanRates s n).getD n 0)
  | .averageBitFlip => some (∑ i ∈ Finset.range (n + 1), ((2 : ℚ) ^ s i - 1) / 2 ^ (i + 1))
  | .worstCaseBitFlip => some ((Finset.range (n + 1)).filter (fun i => 0 < s i)).card
  | _ => none

theorem C106_figure (asserts : Bool) (a : ApproxAdder) (n p q : Nat) (h : AdderLegal n p q a) (hn : 4 * n ≤ 252)
    (met : BenchMetric) (v : ℚ) (hv : adderFigure (adderStart n p q a) n met = some v) (rs : Nat → Nat → Nat → Nat)
    (fuel : Nat) :
    ∃ f g : List (BDD m), measureAdder asserts rs fuel met a n p q = .ok (f, g, v) := by
  obtain ⟨f, h1, h2⟩ := regularAdder_spec (m := m) n
  obtain ⟨g, g1, g2⟩ := approximate_ok (m := m) asserts a n p q h
  have key : ∀ {P : List (BDD m) → List (BDD m) → Prop}, (∃ f g : List (BDD m), regularAdder n = .ok f ∧
      getApproximateAdder asserts a n p q = .ok g ∧ P f g) → P f g := by
    rintro P ⟨f', g', e1, e2, e3⟩
    obtain rfl : f = f' := by rw [h1] at e1; exact Except.ok.inj e1
    obtain rfl : g = g' := by rw [g1] at e2; exact Except.ok.inj e2
    exact e3
  have hbuild : computeErrorMetric (2 * n) rs fuel f g met = .ok v →
      ∃ f g : List (BDD m), measureAdder asserts rs fuel met a n p q = .ok (f, g, v) := fun hv =>
    ⟨f, g, by simp only [measureAdder, h1, g1, hv, bind, Except.bind]⟩
  apply hbuild
  cases met with
  | worstCase =>
    obtain rfl := Option.some.inj hv
    simp only [computeErrorMetric, key (C96_worst_case_error (m := m) asserts a n p q h (by omega)), bind, Except.bind]
  | averageCase =>
    obtain rfl := Option.some.inj hv
    exact (key (C94_average_case_error (m := m) asserts a n p q h (by omega))).1
  | meanSquared =>
    obtain rfl := Option.some.inj hv
    exact (key (C105_mean_squared_error (m := m) asserts a n p q h hn)).2.1
  | errorRate =>
    obtain rfl := Option.some.inj hv
    exact key (C97_error_rate (m := m) asserts a n p q h (by omega))
  | averageBitFlip =>
    obtain rfl := Option.some.inj hv
    exact key (C95_average_bit_flip_error (m := m) asserts a n p q h (by omega))
  | worstCaseBitFlip =>
    obtain rfl := Option.some.inj hv
    simp only [computeErrorMetric, (key (C95_worst_case_bit_flip_error (m := m) asserts a n p q h)).1, bind, Except.bind]
  | worstCaseRelativeApprox | worstCaseRelativeBinarySearch | worstCaseRelativeRandomized | worstCaseRelativeAdd
  | worstCaseRelativeSymbolic | approximateWorstCase5 | averageRelativeApprox | averageRelativeAdd => cases hv

/-- All adders of the tables are legal and small enough for the theorems above; no adder is listed twice. -/
theorem C106_tables : adderTableAdders.length = 27 ∧ adderTableMetrics.length = 8 ∧ adderTableMetrics.Nodup ∧
    adderTableAdders.Nodup ∧ acrTableAdders.Nodup ∧
    ∀ e ∈ adderTableAdders ++ acrTableAdders ++ adderComparisonRows,
      AdderLegal e.2.1 e.2.2.1 e.2.2.2 e.1 ∧ 4 * e.2.1 ≤ 252 := by
  refine ⟨by decide, by decide, by decide, by decide, by decide, ?_⟩
  simp [adderTableAdders, acrTableAdders, adderComparisonRows, AdderLegal]

/-- The label of a measurement determines the metric and the adder built. -/
theorem C106_label (met met' : BenchMetric) (a a' : ApproxAdder) (n p q n' p' q' : Nat)
    (h : adderTableLabel met a n p q = adderTableLabel met' a' n' p' q') :
    met = met' ∧ a = a' ∧ n = n' ∧ p = p' ∧ (a = .gda ∨ a = .gear → q = q') ∧ ∀ asserts,
      getApproximateAdder (m := m) asserts a n p q = getApproximateAdder asserts a' n' p' q' := by
  unfold adderTableLabel at h
  have l0 : " - ".toList = [' ', '-', ' '] := by decide
  have hsp : ∀ (a : ApproxAdder) (n p q : Nat), ' ' ∉ approximateAdderName a n p q := fun a n p q => by
    have hd : ∀ k : Nat, ' ' ∉ Nat.toDigits 10 k := fun k => digits_no (by decide) k
    have t1 : ' ' ∉ "ACA_1_N".toList := by decide
    have t2 : ' ' ∉ "ACA_2_N".toList := by decide
    have t3 : ' ' ∉ "GDA_St_N".toList := by decide
    have t4 : ' ' ∉ "GeAr_N".toList := by decide
    have t5 : ' ' ∉ "_Q".toList := by decide
    have t6 : ' ' ∉ "_M".toList := by decide
    have t7 : ' ' ∉ "_P".toList := by decide
    have t8 : ' ' ∉ "_R".toList := by decide
    have nm : ∀ {l l' : List Char}, ' ' ∉ l → ' ' ∉ l' → ' ' ∉ l ++ l' := fun h h' hc =>
      (List.mem_append.mp hc).elim h h'
    cases a with
    | aca1 => exact nm (nm (nm t1 (hd _)) t5) (hd _)
    | aca2 => exact nm (nm (nm t2 (hd _)) t5) (hd _)
    | gda => exact nm (nm (nm (nm (nm t3 (hd _)) t6) (hd _)) t7) (hd _)
    | gear => exact nm (nm (nm (nm (nm t4 (hd _)) t8) (hd _)) t7) (hd _)
  simp only [l0, List.append_assoc, List.cons_append, List.nil_append] at h
  obtain ⟨e1, e2⟩ := char_split (hsp _ _ _ _) (hsp _ _ _ _) h
  have e3 := (List.cons.inj (List.cons.inj e2).2).2
  refine ⟨C85_names.1 _ _ (String.toList_inj.mp e3), C86_name (m := m) a a' n p q n' p' q' e1⟩

/-- The rows of the comparison: name, error rate, average-case and worst-case error of four `GeAr` adders. -/
theorem C106_comparison (asserts : Bool) (rs : Nat → Nat → Nat → Nat) (fuel : Nat) :
    adderComparisonRows.map (fun e => adderComparisonRow asserts rs fuel e.1 e.2.1 e.2.2.1 e.2.2.2 m) =
      [.ok ("GeAr_N16_R6_P4".toList, 63 / 2048, 63 / 2, 1024), .ok ("GeAr_N16_R4_P4".toList, 15 / 256, 255 / 2, 4096),
        .ok ("GeAr_N16_R4_P8".toList, 15 / 8192, 15 / 2, 4096),
        .ok ("GeAr_N16_R2_P4".toList, 1893 / 16384, 1023 / 2, 16640)] := by
  have key : ∀ e ∈ adderComparisonRows, adderComparisonRow asserts rs fuel e.1 e.2.1 e.2.2.1 e.2.2.2 m =
      .ok (approximateAdderName e.1 e.2.1 e.2.2.1 e.2.2.2,
        1 - (cleanRates (adderStart e.2.1 e.2.2.1 e.2.2.2 e.1) e.2.1).getD e.2.1 0,
        (2 ^ adderStart e.2.1 e.2.2.1 e.2.2.2 e.1 e.2.1 - 1) / 2,
        worstDrop (adderStart e.2.1 e.2.2.1 e.2.2.2 e.1) e.2.1) := fun e he => by
    obtain ⟨hl, hn⟩ := C106_tables.2.2.2.2.2 e (by simp [he])
    obtain ⟨f, h1, h2⟩ := regularAdder_spec (m := m) e.2.1
    obtain ⟨g, g1, g2⟩ := approximate_ok (m := m) asserts e.1 e.2.1 e.2.2.1 e.2.2.2 hl
    have key : ∀ met v, adderFigure (adderStart e.2.1 e.2.2.1 e.2.2.2 e.1) e.2.1 met = some v →
        computeErrorMetric (2 * e.2.1) rs fuel f g met = .ok v := fun met v hv => by
      obtain ⟨f', g', hm⟩ := C106_figure (m := m) asserts e.1 e.2.1 e.2.2.1 e.2.2.2 hl hn met v hv rs fuel
      simp only [measureAdder, h1, g1, bind, Except.bind] at hm
      cases hc : computeErrorMetric (2 * e.2.1) rs fuel f g met with
      | error x => rw [hc] at hm; cases hm
      | ok w =>
        rw [hc] at hm
        simp only [Except.ok.injEq, Prod.mk.injEq] at hm
        rw [hm.2.2]
    simp only [adderComparisonRow, h1, g1, key .errorRate _ rfl, key .averageCase _ rfl, key .worstCase _ rfl, bind,
      Except.bind]
  rw [List.map_congr_left key]
  have hval : adderComparisonRows.map (fun e => (approximateAdderName e.1 e.2.1 e.2.2.1 e.2.2.2,
        1 - (cleanRates (adderStart e.2.1 e.2.2.1 e.2.2.2 e.1) e.2.1).getD e.2.1 0,
        ((2 ^ adderStart e.2.1 e.2.2.1 e.2.2.2 e.1 e.2.1 - 1) / 2 : ℚ),
        (worstDrop (adderStart e.2.1 e.2.2.1 e.2.2.2 e.1) e.2.1 : ℚ))) =
      [("GeAr_N16_R6_P4".toList, 63 / 2048, 63 / 2, 1024), ("GeAr_N16_R4_P4".toList, 15 / 256, 255 / 2, 4096),
        ("GeAr_N16_R4_P8".toList, 15 / 8192, 15 / 2, 4096),
        ("GeAr_N16_R2_P4".toList, 1893 / 16384, 1023 / 2, 16640)] := by decide +kernel
  have := congrArg (List.map (fun r => (Except.ok r : Except Fault (List Char × ℚ × ℚ × ℚ)))) hval
  rw [List.map_map] at this
  exact this

/-- The last line of the comparison. -/
theorem C106_last : adderComparisonLast m = .ok (1 / 8) := by
  have hfit : ∀ (F : Asg → Bool), (∀ x y : Asg, x 0 = y 0 → x 1 = y 1 → x 2 = y 2 → F x = F y) →
      ∀ b : BDD m, (∀ x, b.eval x = F x) → ∀ v ∈ b.supportIndices, v < 3 := fun F hF b hb v hv => by
    rw [BDD.mem_supportIndices] at hv
    obtain ⟨x, hx⟩ := hv
    by_contra hc
    apply hx
    rw [hb, hb]
    apply hF <;> rw [Function.update_of_ne (by omega), Function.update_of_ne (by omega)]
  have hvar : ∀ i < 3, ∀ v ∈ (BDD.var i : BDD m).supportIndices, v < 3 := fun i hi =>
    hfit (fun x => x i) (fun x y h0 h1 h2 => by
      obtain rfl | rfl | rfl : i = 0 ∨ i = 1 ∨ i = 2 := by omega
      · exact h0
      · exact h1
      · exact h2) _ (fun x => BDD.eval_var i x)
  unfold adderComparisonLast
  dsimp only
  rw [C33_average_case_error _ _ 3 ?_ ?_ (by simp)]
  · have e : ∀ x : Asg, absErrAt [(BDD.var 0).or ((BDD.var 2).and (.var 1)), .var 1, (.var 2 : BDD m)]
        [.var 0, .var 1, .var 2] x = ind (!x 0 && x 1 && x 2) := fun x => by
      simp only [absErrAt, uAt, bitsAt, List.map_cons, List.map_nil, BDD.eval_or, BDD.eval_and, BDD.eval_var, uval]
      cases x 0 <;> cases x 1 <;> cases x 2 <;> simp [ind]
    have hval : mean 3 (fun x => ind (!x 0 && x 1 && x 2)) = 1 / 8 := by decide +kernel
    rw [← hval]
    exact congrArg Except.ok (mean_congr 3 e)
  · intro b hb
    simp only [List.mem_cons, List.not_mem_nil, or_false] at hb
    rcases hb with rfl | rfl | rfl
    · exact hfit (fun x => x 0 || (x 2 && x 1)) (fun x y h0 h1 h2 => by rw [h0, h1, h2]) _ (fun x => by simp [BDD.eval_var])
    · exact hvar 1 (by omega)
    · exact hvar 2 (by omega)
  · intro b hb
    simp only [List.mem_cons, List.not_mem_nil, or_false] at hb
    rcases hb with rfl | rfl | rfl
    · exact hvar 0 (by omega)
    · exact hvar 1 (by omega)
    · exact hvar 2 (by omega)

/-! ### Examples -/

example : (.gear, 16, 2, 4) ∈ adderTableAdders ∧ AdderLegal 16 2 4 .gear := by simp [adderTableAdders, AdderLegal]
example : (.errorRate : BenchMetric) ∈ adderTableMetrics ∧ .meanSquared ∈ adderTableMetrics := by decide
-- the figures for `ACA_II(8, 4)`
example : adderTableMetrics.map (adderFigure (adderStart 8 4 0 .aca2) 8) =
    [some 64, none, some (15 / 2), none, some 408, some (3 / 16), some (177 / 512), some 5] := by decide +kernel

end Verif

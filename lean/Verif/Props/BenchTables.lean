import Verif.Model.BenchTables
import Verif.Props.Experiments

/-! # C102 to C104, continued: the arguments of the runtime experiments -/

namespace Verif

variable {m : Mgr}

theorem filename_ok {file : Nat} (h : file < 11) : ∃ n, iscasFilename file = .ok n := by
  unfold iscasFilename fileById
  rw [if_neg (by simpa using h)]
  exact ⟨_, vget_eq _ _ "" (by simpa using h)⟩

/-- Each of the four roundings is measured once without and once with the average, in this order, under different
labels. -/
theorem C102_steps_table : aceStepsArgs.length = 8 ∧
    (∀ file level d, (file, level, d) ∈ aceStepsArgs ↔ (file, level, !d) ∈ aceStepsArgs) ∧
    (∀ a ∈ aceStepsArgs.take 4, a.2.2 = true) ∧ (∀ a ∈ aceStepsArgs.drop 4, a.2.2 = false) ∧
    (∀ a ∈ aceStepsArgs, ∃ s, aceStepsLabel a.1 a.2.1 a.2.2 = .ok s) ∧
    aceStepsArgs.Pairwise fun a b => aceStepsLabel a.1 a.2.1 a.2.2 ≠ aceStepsLabel b.1 b.2.1 b.2.2 := by
  have hok : ∀ a ∈ aceStepsArgs, ∃ s, aceStepsLabel a.1 a.2.1 a.2.2 = .ok s := fun a ha => by
    have hf : ∀ a ∈ aceStepsArgs, a.1 < 11 := by decide
    obtain ⟨n, hn⟩ := filename_ok (hf a ha)
    exact ⟨_, by simp only [aceStepsLabel, hn, bind, Except.bind]; rfl⟩
  have hswap : ∀ a ∈ aceStepsArgs, (a.1, a.2.1, !a.2.2) ∈ aceStepsArgs := by decide
  refine ⟨by decide, fun file level d => ⟨fun h => hswap _ h, fun h => by simpa using hswap _ h⟩,
    by decide, by decide, hok, ?_⟩
  have hnd : aceStepsArgs.Pairwise (· ≠ ·) := by decide
  refine hnd.imp_of_mem fun {a b} ha hb hab e => hab ?_
  obtain ⟨s, hs⟩ := hok a ha
  obtain ⟨h1, h2, h3⟩ := (C102_label _ _ _ _ _ _ s).2 hs (e ▸ hs)
  exact Prod.ext h1 (Prod.ext h2 h3)

/-- Every operator is measured once at each of the levels 1 to 40 of one circuit, under different labels. -/
theorem C103_table : operatorsArgs.length = 320 ∧
    (∀ file op level, (file, op, level) ∈ operatorsArgs ↔ file = 1 ∧ 1 ≤ level ∧ level ≤ 40) ∧
    (∀ a ∈ operatorsArgs, ∃ s, operatorLabel a.1 a.2.1 a.2.2 = .ok s) ∧
    operatorsArgs.Pairwise fun a b => operatorLabel a.1 a.2.1 a.2.2 ≠ operatorLabel b.1 b.2.1 b.2.2 := by
  have hmem : ∀ file op level, (file, op, level) ∈ operatorsArgs ↔ file = 1 ∧ 1 ≤ level ∧ level ≤ 40 := by
    intro file op level
    simp only [operatorsArgs, List.mem_flatMap, List.mem_map, List.mem_range, Prod.mk.injEq]
    constructor
    · rintro ⟨o, -, i, hi, rfl, -, rfl⟩
      omega
    · rintro ⟨rfl, h1, h2⟩
      exact ⟨op, by cases op <;> decide, level - 1, by omega, rfl, rfl, by omega⟩
  have hok : ∀ a ∈ operatorsArgs, ∃ s, operatorLabel a.1 a.2.1 a.2.2 = .ok s := fun a ha => by
    obtain ⟨n, hn⟩ := filename_ok (file := a.1) (by rw [((hmem _ _ _).mp ha).1]; norm_num)
    exact ⟨_, by simp only [operatorLabel, hn, bind, Except.bind]; rfl⟩
  refine ⟨by simp [operatorsArgs], hmem, hok, ?_⟩
  have hnd : operatorsArgs.Pairwise (· ≠ ·) := by decide +kernel
  refine hnd.imp_of_mem fun {a b} ha hb hab e => hab ?_
  obtain ⟨s, hs⟩ := hok a ha
  obtain ⟨h1, h2, h3⟩ := C103_label _ _ _ _ _ _ s hs (e ▸ hs)
  exact Prod.ext h1 (Prod.ext h2 h3)

/-- At a level below the last input of the circuit no operator changes anything. Of the registered levels these are
`41 - ni` per operator for a circuit of `ni` inputs. -/
theorem C103_idle (asserts : Bool) (files : String → List AigEvent × Bool) (file : Nat) (op : Operator)
    (level : Nat) (path : String) (ni no : Nat) (es : List AigEvent) (hp : iscasFilepath file = .ok path)
    (hc : CircuitFile files path ni no es) (hl : ni ≤ level) :
    ∃ f : List (BDD m), IsCircuit es no f ∧ benchmarkOperators asserts files file op level = .ok (f, f) := by
  obtain ⟨f, g, h1, h2, h3, -, h4, -⟩ := C103_operators (m := m) asserts files file op level path ni no es hp hc
  have hb : ∀ b ∈ f, applyOperator b op level level = .ok b := fun b hb => by
    have hs : ∀ v ∈ b.supportIndices, v < level := fun v hv => (h3 b hb v hv).trans_le hl
    obtain ⟨e1, e2, e3, e4, -, -, e5⟩ := C51_untouched b level level fun v hv => .inl (hs v hv)
    obtain ⟨p, n, c1, c2, c3⟩ := C61_cofactor b level level
    have hup : ∀ x val, b.eval (Function.update x level val) = b.eval x := fun x val =>
      BDD.eval_congr fun v hv => Function.update_of_ne (hs v hv).ne _ _
    cases op with
    | positiveCofactor => rw [c1, BDD.ext_eval fun x => ((c3 x).1.trans (hup x true))]
    | negativeCofactor => rw [c2, BDD.ext_eval fun x => ((c3 x).2.trans (hup x false))]
    | subsetLight => exact e1
    | subsetHeavy => exact e2
    | supersetLight => exact e3
    | supersetHeavy => exact e4
    | roundBest => exact e5
    | round => exact C51_untouched_round b level hs
  have hfg : f = g := List.ext_getElem h4.length_eq fun i i1 i2 => by
    have := (List.forall₂_iff_get.mp h4).2 i i1 i2
    rw [List.get_eq_getElem, List.get_eq_getElem, hb _ (List.getElem_mem i1)] at this
    exact Except.ok.inj this
  subst hfg
  exact ⟨f, h2, h1⟩

/-- Both methods are measured with 1, 10, … 1000000 samples on each of three circuits, under different labels. -/
theorem C104_table : samplingArgs.length = 42 ∧
    (∀ improved samples file, (improved, samples, file) ∈ samplingArgs ↔
      (∃ k ≤ 6, samples = 10 ^ k) ∧ (file = 1 ∨ file = 2 ∨ file = 5)) ∧
    (∀ a ∈ samplingArgs, ∃ s, samplingLabel a.1 a.2.1 a.2.2 = .ok s) ∧
    samplingArgs.Pairwise fun a b => samplingLabel a.1 a.2.1 a.2.2 ≠ samplingLabel b.1 b.2.1 b.2.2 := by
  have hok : ∀ a ∈ samplingArgs, ∃ s, samplingLabel a.1 a.2.1 a.2.2 = .ok s := fun a ha => by
    have hf : ∀ a ∈ samplingArgs, a.2.2 < 11 := by decide
    obtain ⟨n, hn⟩ := filename_ok (hf a ha)
    exact ⟨_, by simp only [samplingLabel, hn, bind, Except.bind]; rfl⟩
  refine ⟨by decide, fun x n file => ?_, hok, ?_⟩
  · constructor
    · intro h
      have : ∀ a ∈ samplingArgs, (∃ k ∈ List.range 7, a.2.1 = 10 ^ k) ∧ (a.2.2 = 1 ∨ a.2.2 = 2 ∨ a.2.2 = 5) := by decide
      obtain ⟨⟨k, hk, h1⟩, h2⟩ := this _ h
      exact ⟨⟨k, by have := List.mem_range.mp hk; omega, h1⟩, h2⟩
    · rintro ⟨⟨k, hk, rfl⟩, h⟩
      have : ∀ k ∈ List.range 7, ∀ x : Bool, ∀ file ∈ [1, 2, 5], (x, 10 ^ k, file) ∈ samplingArgs := by decide
      exact this k (List.mem_range.mpr (by omega)) x file (by simpa using h)
  · have hnd : samplingArgs.Pairwise (· ≠ ·) := by decide
    refine hnd.imp_of_mem fun {a b} ha hb hab e => hab ?_
    obtain ⟨s, hs⟩ := hok a ha
    obtain ⟨h1, h2, h3⟩ := C104_label _ _ _ _ _ _ s hs (e ▸ hs)
    exact Prod.ext h1 (Prod.ext h2 h3)

/-- A circuit of two inputs at level 2. -/
example : (benchmarkOperators (m := .id) true andFile 1 .positiveCofactor 2).toOption =
    some ([(BDD.var 0).and (.var 1)], [(BDD.var 0).and (.var 1)]) ∧ (1, .positiveCofactor, 2) ∈ operatorsArgs := by
  decide +kernel

end Verif

import Verif.Proofs.PrintSampling
import Verif.Props.FloatHelper
import Verif.Props.FloatSampling
import Verif.Props.Experiments

/-! # C125 the comparison of the sampling methods, as printed -/

namespace Verif

variable {m : Mgr} {rnd : ℚ → ℚ}

/-- The fields of the line for `n` samples: the share of drawn inputs on which `f` and `g` differ, and an estimate that
obeys the bounds of the error rate, up to rounding. -/
def SamplingFields (ni : Nat) (f g : List (BDD m)) (draws : Nat → Nat → Nat) (n : Nat) (row : List (List Char)) : Prop :=
  ∃ a b c, ∃ naive improved : ℚ, row = [a, b, c] ∧ readNat a = some n ∧ Shows b naive ∧ Shows c improved ∧
    ShowsAtMost b 1 ∧ ShowsAtMost c 1 ∧
    (∀ k : Nat, k = ((List.range n).filter (fun j =>
        decide (bitsAt f (drawn ni draws j) ≠ bitsAt g (drawn ni draws j)))).length →
      |naive - (k : ℚ) / n| ≤ 1 / 2 ^ 53 * ((k : ℚ) / n) ∧ (naive = 0 ↔ k = 0)) ∧
    (∀ i, bitRate ni f g i * (1 - ni / 2 ^ 53) ≤ improved) ∧
    improved ≤ ((List.range f.length).map (bitRate ni f g)).sum * (1 + (ni + f.length) / 2 ^ 52)

/-- Two outputs change, and not much less often than any other. -/
def TwoChange (ni : Nat) (f g : List (BDD m)) : Prop :=
  ∃ i j, i < j ∧ j < f.length ∧ 0 < bitRate ni f g i ∧ 0 < bitRate ni f g j ∧
    ∀ k, bitRate ni f g k ≤ 2 ^ 50 * bitRate ni f g i ∧ bitRate ni f g k ≤ 2 ^ 50 * bitRate ni f g j

theorem sampling_step (hr : Nearest rnd) {f g : List (BDD m)} {ni : Nat} {acts : List (Nat × ℚ)}
    (rs : Nat → Nat → Nat → Nat) (rs' : Nat → Nat → Nat → Nat → Nat) (hl : f.length = g.length) (hf : Fits ni f)
    (hg : Fits ni g) (h0 : 1 ≤ ni) (h1 : ni ≤ 1000) (hno : f.length ≤ 1500)
    (hacts : SortedActsF rnd (ni - 1) (xorDiff f g) acts) (htwo : TwoChange ni f g) {n : Nat} (hn : 1 ≤ n)
    (hn' : n < 2 ^ 30) : ∃ fs, fs ≠ [] ∧ (∀ s ∈ fs, Plain s) ∧
      samplingStep rnd f g ni acts rs rs' n = .ok (joined [';'] fs ++ ['\n']) ∧ SamplingFields ni f g (rs n) n fs := by
  obtain ⟨q, e1, -, e2, e3, e4, -⟩ := C123_sampling hr f g ni n (rs n) hl hf hg hn (by omega) _ rfl
  obtain ⟨q', e5, e6, e7, e8⟩ := C123_efficient_partial hr f g ni n acts (rs' n) hl hf hg h0 h1 hno hn' hacts htwo
  have one : SixDigits 1 := ⟨1, 0, by norm_num, by norm_num⟩
  refine ⟨[natText n, formatG q, formatG q'], by simp, ?_, ?_, natText n, formatG q, formatG q', q, q', rfl,
    readNat_natText n, shows_number q, shows_number q', shows_le one e2, shows_le one e7, fun k hk => ?_, e6, e8⟩
  · intro s hs
    simp only [List.mem_cons, List.not_mem_nil, or_false] at hs
    rcases hs with rfl | rfl | rfl
    · exact plain_nat n
    · exact plain_number q
    · exact plain_number q'
  · simp only [samplingStep, e1, e5, bind, Except.bind, samplingLine, joined]
    simp
  · subst hk
    exact ⟨e3, e4⟩

/-- What `improved_sampling` prints, on a circuit of which the rounding changes two outputs: the number of outputs, a
fixed line, the error rate of the circuit `f` and its rounding `g`, and 200 rows for 100, 200, … 20000 samples. If at most one
of several outputs changes, the first of these rows is not reached. Missing: circuits of which several outputs change, but
only one of them not less often than `2 ^ -50` times another. -/
theorem C125_text_partial (hr : Nearest rnd) (asserts : Bool) (files : String → List AigEvent × Bool)
    (acts : List (BDD m) → List (BDD m) → List (Nat × ℚ)) (rs : Nat → Nat → Nat → Nat)
    (rs' : Nat → Nat → Nat → Nat → Nat) (path : String) (ni no : Nat)
    (es : List AigEvent) (hp : iscasFilepath 3 = .ok path) (hc : CircuitFile files path ni no es)
    (h0 : 1 ≤ ni) (h1 : ni ≤ 1000) (hno : no ≤ 1500)
    (hacts : ∀ f g : List (BDD m), SortedActsF rnd (ni - 1) (xorDiff f g) (acts f g)) :
    ∃ f g : List (BDD m), IsCircuit es no f ∧ Fits ni g ∧ (∀ x, uAt g x ≤ uAt f x) ∧
      List.Forall₂ (fun a b => roundAnyF rnd a 52 10000000 false true = .ok b) f g ∧
      ∃ er, |er - mean ni (fun x => if bitsAt f x = bitsAt g x then 0 else 1)| ≤
          ni / 2 ^ 52 * mean ni (fun x => if bitsAt f x = bitsAt g x then 0 else 1) ∧ (er = 0 ↔ f = g) ∧
        ∃ rate, Shows rate er ∧ ShowsAtMost rate 1 ∧
      (TwoChange ni f g → ∃ text rows, improvedSamplingText rnd asserts files ni acts rs rs' = (text, none) ∧
        readTable ';' text = some (["Read file: ".toList ++ Nat.toDigits 10 no ++ " outputs".toList] ::
          ["Approximated the function".toList] :: ["error rate: ".toList ++ rate] :: rows) ∧
        List.Forall₂ (fun j row => SamplingFields ni f g (rs (100 * (j + 1))) (100 * (j + 1)) row) (List.range 200) rows) ∧
      (2 ≤ no → (∀ i j, i < j → j < no → f[i]? = g[i]? ∨ f[j]? = g[j]?) →
        improvedSamplingText rnd asserts files ni acts rs rs' =
          ("Read file: ".toList ++ Nat.toDigits 10 no ++ " outputs\nApproximated the function\nerror rate: ".toList ++
            rate ++ "\n".toList, some .ub)) := by
  obtain ⟨f, g1, g2, g3⟩ := loadIscas_circuit (m := m) asserts files hp hc
  obtain ⟨g, h4, h5⟩ := roundOutputs_spec (op := fun orig => applyOperatorF rnd orig .subsetLight 52 10000000)
    (R := fun b r : BDD m => applyOperatorF rnd b .subsetLight 52 10000000 = .ok r ∧ ∀ x, r.eval x = true → b.eval x = true)
    (fun b => by
      obtain ⟨r, e1, -, -, -, e2, -⟩ := C124_apply_operator rnd b .subsetLight 52 10000000
      exact ⟨r, e1, e1, e2 (Or.inl rfl)⟩) f
  have hg := fits_forall₂ g3 (h5.imp fun b r h => applyOperatorF_support h.1)
  have hl : f.length = g.length := h5.length_eq
  obtain ⟨er, r1, -, r2, r3, r4, -, r5⟩ := C98_error_rate hr f g ni hl g3 hg h1 _ rfl
  have one : SixDigits 1 := ⟨1, 0, by norm_num, by norm_num⟩
  refine ⟨f, g, g2, hg, ?_, h5.imp fun _ _ h => h.1, er, r4, r5, formatG er, shows_number er, shows_le one r3,
    fun htwo => ?_, fun h2 hone => ?_⟩
  · exact fun x => uAt_le_of_implies (f := g) (g := f) (List.forall₂_iff_get.mpr ⟨hl.symm, fun i h1 h2 =>
      ((List.forall₂_iff_get.mp h5).2 i h2 h1).2⟩) x
  · obtain ⟨text, rows, t1, t2, t3⟩ := semi_table
      (fun j => samplingStep rnd f g ni (acts f g) rs rs' (100 + 100 * j))
      (fun j row => SamplingFields ni f g (rs (100 * (j + 1))) (100 * (j + 1)) row) (List.range 200) fun j hj => by
        have hj' := List.mem_range.mp hj
        rw [show 100 + 100 * j = 100 * (j + 1) by ring]
        exact sampling_step hr rs rs' hl g3 hg h0 h1 (by rw [g2.1]; exact hno) (hacts f g) htwo (by omega) (by omega)
    have a3 := readTable_semi (fs := ["error rate: ".toList ++ formatG er]) (by simp) (by simpa using plain_rate er) t2
    have a2 := readTable_semi (fs := ["Approximated the function".toList]) (by simp) (by decide) a3
    have a1 := readTable_semi (fs := ["Read file: ".toList ++ natText no ++ " outputs".toList]) (by simp)
      (by simpa using plain_outputs no) a2
    refine ⟨_, rows, ?_, a1, t3⟩
    unfold improvedSamplingText
    rw [g1]
    dsimp only
    rw [h4]
    dsimp only
    rw [r1, samplingLines_eq _ 201 100 (by norm_num) (by norm_num)]
    simp only [bind, Except.bind, printRows, t1, g2.1, joined]
    simp
  · unfold improvedSamplingText
    rw [g1]
    dsimp only
    rw [h4]
    dsimp only
    rw [r1, samplingLines_eq _ 201 100 (by norm_num) (by norm_num), show (20100 - 100) / 100 = 199 + 1 by norm_num,
      List.range_succ_eq_map, List.map_cons]
    have hz : ∀ i, f[i]? = g[i]? → bitRate ni f g i = 0 := fun i hi => by
      have : (fun x => if (bitsAt f x)[i]? = (bitsAt g x)[i]? then (0 : ℚ) else 1) = fun _ => 0 := by
        funext x
        rw [if_pos (by simp only [bitsAt, List.getElem?_map, hi])]
      rw [bitRate, this]
      simp [mean]
    have hub : samplingStep rnd f g ni (acts f g) rs rs' (100 + 100 * 0) = .error .ub := by
      obtain ⟨q, e1, -⟩ := C123_sampling hr f g ni (100 + 100 * 0) (rs (100 + 100 * 0)) hl g3 hg (by norm_num) (by norm_num) _ rfl
      have e2 := C123_efficient_undefined hr f g ni ((100 + 100 * 0 : Nat) : Int) (acts f g) (rs' (100 + 100 * 0)) hl g3 hg h0 h1
        (by rw [g2.1]; exact hno.trans (by norm_num)) (hacts f g) (by rw [g2.1]; exact h2)
        (fun i j hij hj => (hone i j hij (by rw [← g2.1]; exact hj)).imp (hz i) (hz j))
      simp only [samplingStep, e1, e2, bind, Except.bind]
    simp only [bind, Except.bind, printRows, hub, g2.1]
    simp [natText]

/-- The file of two equal outputs: both change. -/
example (hr : Nearest rnd) : ∃ (f g : List (BDD .id)), (loadIscas true wideFile 3).toOption = some f ∧
    List.Forall₂ (fun a b => roundAnyF rnd a 52 10000000 false true = .ok b) f g ∧ TwoChange 54 f g ∧
    (∀ path, CircuitFile wideFile path 54 2 wideParts) ∧ (∃ path, iscasFilepath 3 = .ok path) ∧
    ∀ f g : List (BDD .id), ∃ acts, SortedActsF rnd (54 - 1) (xorDiff f g) acts := by
  have z : rnd 0 = 0 := hr.exact' isDouble_zero (by norm_num) (by norm_num)
  have a1 : rnd (1 / 2) = 1 / 2 := by simpa using hr.pow 1 (by norm_num)
  have a2 : rnd (1 / 2 / 2) = 1 / 2 / 2 := by
    have := hr.pow 2 (by norm_num)
    norm_num at this ⊢
    exact this
  have a3 : rnd (1 / 2 + 1 / 2 / 2) = 1 / 2 + 1 / 2 / 2 := by
    have := hr.exact' (isDouble_nat_div 3 2 (by norm_num) (by norm_num)) (by norm_num) (by norm_num)
    norm_num at this ⊢
    exact this
  have he : ((BDD.var 52 : BDD .id).or (.var 53)).edge =
      ⟨false, .node 52 .one false (.node 53 .one true .one)⟩ := by decide +kernel
  have hc : countMintermsF rnd ((BDD.var 52 : BDD .id).or (.var 53)) =
      countMintermsF (fun q => q) ((BDD.var 52 : BDD .id).or (.var 53)) := by
    unfold countMintermsF
    rw [he]
    simp only [one_div] at a1 a2 a3
    simp [countMintermsRecF, NMap.find, NMap.insert, z, a1, a2, a3]
  have hb : roundAnyF rnd ((BDD.var 52 : BDD .id).or (.var 53)) 52 10000000 false true = .ok (.var 52) := by
    unfold roundAnyF
    rw [hc]
    decide +kernel
  have hf : Fits 54 [(BDD.var 52 : BDD .id).or (.var 53), (BDD.var 52).or (.var 53)] := by decide +kernel
  have hg : Fits 54 [(BDD.var 52 : BDD .id), .var 52] := by decide +kernel
  refine ⟨[(BDD.var 52).or (.var 53), (BDD.var 52).or (.var 53)], [.var 52, .var 52], by decide +kernel,
    .cons hb (.cons hb .nil), ⟨0, 1, by norm_num, by norm_num, ?_, ?_, fun k => ?_⟩,
    fun path => ⟨55, 0, 1, by norm_num, by decide +kernel, by decide +kernel, rfl⟩, ⟨_, rfl⟩,
    fun f g => sortedActsF_exists _ _ _⟩
  · exact bitRate_pos hf hg (by norm_num) (by norm_num) (by norm_num) (by decide +kernel)
  · exact bitRate_pos hf hg (by norm_num) (by norm_num) (by norm_num) (by decide +kernel)
  · have h0 := bitRate_bounds 54 [(BDD.var 52 : BDD .id).or (.var 53), (BDD.var 52).or (.var 53)] [.var 52, .var 52] 0
    have h1 : ∀ k, bitRate 54 [(BDD.var 52 : BDD .id).or (.var 53), (BDD.var 52).or (.var 53)] [.var 52, .var 52] k ≤
        bitRate 54 [(BDD.var 52 : BDD .id).or (.var 53), (BDD.var 52).or (.var 53)] [.var 52, .var 52] 0 := fun k => by
      match k with
      | 0 => exact le_refl _
      | 1 => exact le_of_eq (by simp [bitRate, bitsAt])
      | k + 2 => 
        have : bitRate 54 [(BDD.var 52 : BDD .id).or (.var 53), (BDD.var 52).or (.var 53)] [.var 52, .var 52] (k + 2) = 0 := by
          simp [bitRate, bitsAt, mean]
        rw [this]
        exact h0.1
    have h2 : bitRate 54 [(BDD.var 52 : BDD .id).or (.var 53), (BDD.var 52).or (.var 53)] [.var 52, .var 52] 1 =
        bitRate 54 [(BDD.var 52 : BDD .id).or (.var 53), (BDD.var 52).or (.var 53)] [.var 52, .var 52] 0 := by
      simp [bitRate, bitsAt]
    have h3 := h1 k
    rw [h2]
    constructor <;> linarith only [h3, h0.1]

end Verif

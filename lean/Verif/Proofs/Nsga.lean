import Verif.Model.Nsga
import Verif.Proofs.Bucket
import Verif.Proofs.Support
import Verif.Props.Average

/-! # Helper lemmas for C82, C83 and C84 -/

namespace Verif

variable {m : Mgr}

theorem mem_supportPositions {f : List (BDD m)} {i v : Nat} :
    (i, v) ∈ supportPositions f ↔ ∃ b, f[i]? = some b ∧ v ∈ b.supportIndices := by
  simp only [supportPositions, List.mem_flatMap, List.mem_map, List.mem_insertionSort, Prod.mk.injEq]
  constructor
  · rintro ⟨⟨b, j⟩, h1, s, h2, rfl, rfl⟩
    rw [List.mem_zipIdx_iff_getElem?] at h1
    exact ⟨b, h1, h2⟩
  · rintro ⟨b, h1, h2⟩
    exact ⟨(b, i), List.mem_zipIdx_iff_getElem?.mpr h1, v, h2, rfl, rfl⟩

/-- Positions come in the order of the bits, for one bit in the order of the variables. -/
def posLt (p q : Nat × Nat) : Prop := p.1 < q.1 ∨ p.1 = q.1 ∧ p.2 < q.2

theorem sorted_support (b : BDD m) : (b.supportIndices.insertionSort (· ≤ ·)).Pairwise (· < ·) := by
  have h1 : (b.supportIndices.insertionSort (· ≤ ·)).Pairwise (· ≤ ·) :=
    List.pairwise_insertionSort (· ≤ ·) _
  have h2 : (b.supportIndices.insertionSort (· ≤ ·)).Nodup :=
    (List.perm_insertionSort (· ≤ ·) _).nodup_iff.mpr (List.nodup_dedup _)
  exact (h1.and h2).imp (fun h => lt_of_le_of_ne h.1 h.2)

theorem sorted_supportPositions (f : List (BDD m)) : (supportPositions f).Pairwise posLt := by
  rw [supportPositions]
  generalize hk : 0 = k
  clear hk
  induction f generalizing k with
  | nil => simp
  | cons a l ih =>
      simp only [List.zipIdx_cons, List.flatMap_cons, List.pairwise_append]
      refine ⟨?_, ih (k + 1), ?_⟩
      · rw [List.pairwise_map]
        exact (sorted_support a).imp (fun h => .inr ⟨rfl, h⟩)
      · intro p hp q hq
        simp only [List.mem_map] at hp
        obtain ⟨s, -, rfl⟩ := hp
        simp only [List.mem_flatMap, List.mem_map] at hq
        obtain ⟨⟨b, j⟩, h1, s', -, rfl⟩ := hq
        have := List.le_snd_of_mem_zipIdx h1
        exact .inl (by simpa using by omega)

theorem nodup_supportPositions (f : List (BDD m)) : (supportPositions f).Nodup :=
  (sorted_supportPositions f).imp (fun h e => by subst e; rcases h with h | h <;> omega)

/-- What a parameter makes of the value of its variable. -/
def picked (p : ℚ) (b : Bool) : Bool := if p > 3 / 2 then true else if p > 1 / 2 then false else b

theorem individuumStep_spec (p : ℚ) (i v : Nat) (ind : List (BDD m)) (hi : i < ind.length) :
    ∃ ind', individuumStep p (i, v) ind = .ok ind' ∧ ind'.length = ind.length ∧
      (∀ j, j ≠ i → ind'[j]? = ind[j]?) ∧
      ∃ b b', ind[i]? = some b ∧ ind'[i]? = some b' ∧
        (∀ x, b'.eval x = b.eval (Function.update x v (picked p (x v)))) ∧
        (p ≤ 1 / 2 → b' = b) := by
  have hget : vget ind i = .ok ind[i] := by rw [vget_ok_iff]; simp [hi]
  rw [individuumStep]
  by_cases h1 : p > 3 / 2
  · rw [if_pos h1]
    simp only [hget, bind, Except.bind, vset, if_pos hi]
    refine ⟨_, rfl, by simp, fun j hj => by simp [Ne.symm hj], ind[i], cofactor ind[i] v true,
      by simp [hi], by simp [hi], fun x => ?_, fun h => ?_⟩
    · rw [cofactor_eval]; simp [picked, h1]
    · exact absurd h1 (by linarith)
  · rw [if_neg h1]
    by_cases h2 : p > 1 / 2
    · rw [if_pos h2]
      simp only [hget, bind, Except.bind, vset, if_pos hi]
      refine ⟨_, rfl, by simp, fun j hj => by simp [Ne.symm hj], ind[i], cofactor ind[i] v false,
        by simp [hi], by simp [hi], fun x => ?_, fun h => ?_⟩
      · rw [cofactor_eval, picked, if_neg h1, if_pos h2]
      · exact absurd h2 (by linarith)
    · rw [if_neg h2]
      refine ⟨ind, rfl, rfl, fun _ _ => rfl, ind[i], ind[i], by simp [hi], by simp [hi], fun x => ?_, fun _ => rfl⟩
      rw [picked, if_neg h1, if_neg h2, Function.update_eq_self]

theorem individuumLoop_spec (params : List ℚ) : ∀ (pos : List (Nat × Nat)) (k : Nat) (ind : List (BDD m)),
    pos.Nodup → (∀ p ∈ pos, p.1 < ind.length) → pos.length + k ≤ params.length →
    ∃ g, individuumLoop params pos k ind = .ok g ∧ g.length = ind.length ∧
      ((∀ q ∈ params, q ≤ 1 / 2) → g = ind) ∧
      ∀ i b, ind[i]? = some b → ∃ b', g[i]? = some b' ∧
        ∀ x y : Asg, (∀ v j, pos[j]? = some (i, v) → ∃ p, params[k + j]? = some p ∧ y v = picked p (x v)) →
          (∀ v, (i, v) ∉ pos → y v = x v) → b'.eval x = b.eval y
  | [], k, ind, _, _, _ => by
      refine ⟨ind, rfl, rfl, fun _ => rfl, fun i b h => ⟨b, h, fun x y _ h2 => ?_⟩⟩
      have : y = x := funext (fun v => h2 v (by simp))
      rw [this]
  | (i, v) :: rest, k, ind, hnd, hb, hl => by
      simp only [List.length_cons] at hl
      have hk : k < params.length := by omega
      have hi : i < ind.length := hb (i, v) (by simp)
      obtain ⟨ind', h1, h2, h3, b0, b0', h4, h5, h6, h6'⟩ := individuumStep_spec params[k] i v ind hi
      obtain ⟨hv, hnd'⟩ := List.nodup_cons.mp hnd
      obtain ⟨g, g1, g2, g3, g4⟩ := individuumLoop_spec params rest (k + 1) ind' hnd'
        (fun p hp => by rw [h2]; exact hb p (by simp [hp])) (by omega)
      refine ⟨g, ?_, by omega, ?_, ?_⟩
      · rw [individuumLoop]
        have : vget params k = .ok params[k] := by rw [vget_ok_iff]; simp [hk]
        simp only [this, bind, Except.bind, h1, g1]
      · intro hq
        rw [g3 hq]
        have hb' := h6' (hq _ (List.getElem_mem hk))
        apply List.ext_getElem?
        intro j
        by_cases hj : j = i
        · subst hj; rw [h4, h5, hb']
        · exact h3 j hj
      · intro i' b hb1
        by_cases hii : i' = i
        · subst hii
          rw [h4] at hb1
          obtain rfl := Option.some.inj hb1
          obtain ⟨b', hb', hs⟩ := g4 i' b0' h5
          refine ⟨b', hb', fun x y hy hy' => ?_⟩
          obtain ⟨p, hp, hyv⟩ := hy v 0 rfl
          rw [Nat.add_zero, List.getElem?_eq_getElem hk, Option.some.injEq] at hp
          subst hp
          have e1 := hs x (Function.update y v (x v)) (fun w j hw => ?_) (fun w hw => ?_)
          · rw [e1, h6]
            congr 1
            funext w
            by_cases hwv : w = v
            · subst hwv; simp [hyv]
            · simp [hwv]
          · have hwv : w ≠ v := by
              rintro rfl
              exact hv (List.mem_of_getElem? hw)
            obtain ⟨p, hp, hq⟩ := hy w (j + 1) (by simpa using hw)
            exact ⟨p, by rw [← hp]; congr 1; omega, by simpa [hwv] using hq⟩
          · by_cases hwv : w = v
            · subst hwv; simp
            · simp only [Function.update_of_ne hwv]
              exact hy' w (by simp [hwv, hw])
        · obtain ⟨b', hb', hs⟩ := g4 i' b (by rw [h3 i' hii]; exact hb1)
          refine ⟨b', hb', fun x y hy hy' => hs x y (fun w j hw => ?_) (fun w hw => ?_)⟩
          · obtain ⟨p, hp, hq⟩ := hy w (j + 1) (by simpa using hw)
            exact ⟨p, by rw [← hp]; congr 1; omega, hq⟩
          · exact hy' w (by simp [hii, hw])

theorem individuumLoop_ub (params : List ℚ) : ∀ (pos : List (Nat × Nat)) (k : Nat) (ind : List (BDD m)),
    (∀ p ∈ pos, p.1 < ind.length) → params.length < pos.length + k → k ≤ params.length →
    individuumLoop params pos k ind = .error .ub
  | [], k, ind, _, h, h' => by simp at h; omega
  | (i, v) :: rest, k, ind, hb, hl, hk => by
      simp only [List.length_cons] at hl
      rw [individuumLoop]
      by_cases hk' : k < params.length
      · have : vget params k = .ok params[k] := by rw [vget_ok_iff]; simp [hk']
        obtain ⟨ind', h1, h2, -⟩ := individuumStep_spec params[k] i v ind (hb (i, v) (by simp))
        simp only [this, bind, Except.bind, h1]
        exact individuumLoop_ub params rest (k + 1) ind'
          (fun p hp => by rw [h2]; exact hb p (by simp [hp])) (by omega) hk'
      · rw [vget_error _ _ (by omega)]
        rfl

theorem supportPositions_lt {f : List (BDD m)} {p : Nat × Nat} (h : p ∈ supportPositions f) :
    p.1 < f.length := by
  obtain ⟨b, hb, -⟩ := mem_supportPositions.mp (show (p.1, p.2) ∈ _ from h)
  exact (List.getElem?_eq_some_iff.mp hb).1

theorem functionFromIndividuum_spec (f : List (BDD m)) (params : List ℚ)
    (hl : (supportPositions f).length ≤ params.length) :
    ∃ g, functionFromIndividuum f params = .ok g ∧ g.length = f.length ∧
      ((∀ q ∈ params, q ≤ 1 / 2) → g = f) ∧
      ∀ (i : Nat) (b : BDD m), f[i]? = some b → ∃ b' : BDD m, g[i]? = some b' ∧
        ∀ x y : Asg, (∀ v j : Nat, (supportPositions f)[j]? = some (i, v) →
          ∃ p, params[j]? = some p ∧ y v = picked p (x v)) → b'.eval x = b.eval y := by
  obtain ⟨g, h1, h2, h3, h4⟩ := individuumLoop_spec params (supportPositions f) 0 f
    (nodup_supportPositions f) (fun p hp => supportPositions_lt hp) (by omega)
  refine ⟨g, h1, h2, h3, fun i b hb => ?_⟩
  obtain ⟨b', hb', hs⟩ := h4 i b hb
  refine ⟨b', hb', fun x y hy => ?_⟩
  rw [hs x (fun v => if (i, v) ∈ supportPositions f then y v else x v) (fun v j hv => ?_) (fun v hv => by simp [hv])]
  · apply BDD.eval_congr
    intro v hv
    rw [if_pos (mem_supportPositions.mpr ⟨b, hb, hv⟩)]
  · obtain ⟨p, hp, hq⟩ := hy v j hv
    refine ⟨p, by rw [Nat.zero_add]; exact hp, ?_⟩
    rw [if_pos (List.mem_of_getElem? hv)]
    exact hq

/-- The input of the original bit that belongs to an input of the bit of the individuum. -/
def chosen (f : List (BDD m)) (params : List ℚ) (i : Nat) (x : Asg) : Asg := fun v =>
  picked (params.getD ((supportPositions f).idxOf (i, v)) 0) (x v)

theorem chosen_spec (f : List (BDD m)) (params : List ℚ)
    (hl : (supportPositions f).length ≤ params.length) (i : Nat) (x : Asg) (v j : Nat)
    (h : (supportPositions f)[j]? = some (i, v)) :
    ∃ p, params[j]? = some p ∧ chosen f params i x v = picked p (x v) := by
  obtain ⟨hj, he⟩ := List.getElem?_eq_some_iff.mp h
  have hj' : j < params.length := by omega
  refine ⟨params[j], by simp [hj'], ?_⟩
  have : (supportPositions f).idxOf (i, v) = j := by
    rw [← he]
    exact (nodup_supportPositions f).idxOf_getElem j hj
  rw [chosen, this]
  simp [hj']

theorem functionFromIndividuum_fits {f g : List (BDD m)} {params : List ℚ} {N : Nat}
    (hl : (supportPositions f).length ≤ params.length) (h : functionFromIndividuum f params = .ok g)
    (hf : Fits N f) : Fits N g := by
  obtain ⟨g', h1, h2, -, h4⟩ := functionFromIndividuum_spec f params hl
  rw [h] at h1
  obtain rfl := Except.ok.inj h1
  intro b' hb'
  obtain ⟨i, hi, rfl⟩ := List.mem_iff_getElem.mp hb'
  have hi' : i < f.length := by omega
  obtain ⟨b'', hb'', hs⟩ := h4 i f[i] (by simp [hi'])
  rw [List.getElem?_eq_getElem hi, Option.some.injEq] at hb''
  subst hb''
  apply fits_of_eval
  intro x y hxy
  rw [hs x (chosen f params i x) (fun v j hv => chosen_spec f params hl i x v j hv),
    hs y (chosen f params i y) (fun v j hv => chosen_spec f params hl i y v j hv)]
  apply BDD.eval_congr
  intro v hv
  rw [chosen, chosen, hxy v (hf _ (List.getElem_mem hi') v hv)]

/-- The error rate and the average-case error of an individuum. -/
structure ErrorsOf (N : Nat) (both : Bool) (f g : List (BDD m)) (er ace : ℚ) : Prop where
  rate : er = mean N (fun x => if bitsAt f x = bitsAt g x then 0 else 1)
  rate0 : 0 ≤ er
  rate1 : er ≤ 1
  avg : both = true → ace = mean N (absErrAt f g)
  avg0 : 0 ≤ ace
  zero : both = false → ace = 0

theorem mean_absErrAt_nonneg (N : Nat) (f g : List (BDD m)) : 0 ≤ mean N (absErrAt f g) := by
  rw [mean]
  apply div_nonneg
  · apply Finset.sum_nonneg
    intro a _
    rw [absErrAt]
    exact_mod_cast abs_nonneg _
  · positivity

theorem individuumErrors_spec (both : Bool) (f g : List (BDD m)) (N : Nat) (hl : f.length = g.length)
    (hf : Fits N f) (hg : Fits N g) (hN : N ≤ 1024) (hb : both = true → f.length + 1 + N ≤ 256) :
    ∃ er ace, individuumErrors both f g = .ok (er, ace) ∧ ErrorsOf N both f g er ace := by
  obtain ⟨q, hq, he, h0, h1, -⟩ := C35_error_rate f g N hl hf hg hN
  rw [individuumErrors]
  cases both with
  | false =>
      refine ⟨q, 0, by simp [hq, bind, Except.bind], he, h0, h1, by simp, le_refl _, fun _ => rfl⟩
  | true =>
      have := C33_average_case_error f g N hf hg (by have := hb rfl; omega)
      refine ⟨q, mean N (absErrAt f g), ?_, he, h0, h1, fun _ => rfl, mean_absErrAt_nonneg N f g, by simp⟩
      simp only [hq, bind, Except.bind, if_true, this]
      rfl

/-- What `fitness` returns. -/
theorem fitness_spec (pr : MinProblem m) (params : List ℚ) (N : Nat) (hf : Fits N pr.original)
    (hN : N ≤ 1024) (hb : pr.erAndAce = true → pr.original.length + 1 + N ≤ 256)
    (hl : (supportPositions pr.original).length ≤ params.length) :
    ∃ g, functionFromIndividuum pr.original params = .ok g ∧ g.length = pr.original.length ∧
      ((nodeCount pr.original ≤ nodeCount g ∧ fitness pr params = .ok
          (if pr.erAndAce then [(nodeCount g : ℚ) * 5, 100, pr.maxAce * 2] else [(nodeCount g : ℚ) * 5, 100])) ∨
      (nodeCount g < nodeCount pr.original ∧ ∃ er ace, ErrorsOf N pr.erAndAce pr.original g er ace ∧
        fitness pr params = .ok (if pr.erAndAce then [punish pr (nodeCount g) er ace, er, ace]
          else [punish pr (nodeCount g) er ace, er]))) := by
  obtain ⟨g, h1, h2, -, -⟩ := functionFromIndividuum_spec pr.original params hl
  refine ⟨g, h1, h2, ?_⟩
  by_cases hc : nodeCount pr.original ≤ nodeCount g
  · refine .inl ⟨hc, ?_⟩
    rw [fitness]
    simp only [h1, bind, Except.bind]
    rw [if_pos (by exact_mod_cast hc)]
  · refine .inr ⟨by omega, ?_⟩
    obtain ⟨er, ace, he, hs⟩ := individuumErrors_spec pr.erAndAce pr.original g N h2.symm hf
      (functionFromIndividuum_fits hl h1 hf) hN hb
    refine ⟨er, ace, hs, ?_⟩
    rw [fitness]
    simp only [h1, bind, Except.bind]
    rw [if_neg (by push Not; exact_mod_cast Nat.lt_of_not_le hc)]
    simp only [he]

/-- What the loop over the populations needs to know about the problem. -/
structure GoodRun (N : Nat) (pr : MinProblem m) (maxEr maxAce : ℚ) : Prop where
  fits : Fits N pr.original
  vars : N ≤ 1024
  both : pr.erAndAce = true → pr.original.length + 1 + N ≤ 256
  er100 : maxEr ≤ 100
  er : maxEr ≤ pr.maxErrorRate
  ace : pr.erAndAce = true → maxAce ≤ pr.maxAce
  ace0 : pr.erAndAce = false → 0 ≤ pr.maxAce

/-- An individuum smaller than the original whose errors are below the limits. -/
structure Found (N : Nat) (pr : MinProblem m) (maxEr maxAce : ℚ) (ind : List ℚ) (g : List (BDD m))
    (er ace : ℚ) : Prop where
  fn : functionFromIndividuum pr.original ind = .ok g
  less : nodeCount g < nodeCount pr.original
  errors : ErrorsOf N pr.erAndAce pr.original g er ace
  erLt : er < maxEr
  aceLt : pr.erAndAce = true → ace < maxAce

theorem punish_found {N : Nat} {pr : MinProblem m} {maxEr maxAce : ℚ} (hr : GoodRun N pr maxEr maxAce)
    {ind : List ℚ} {g : List (BDD m)} {er ace : ℚ} (h : Found N pr maxEr maxAce ind g er ace) (n : ℚ) :
    punish pr n er ace = n := by
  rw [punish]
  have h1 : ¬ er > pr.maxErrorRate := by have := h.erLt; have := hr.er; linarith
  have h2 : ¬ ace > pr.maxAce := by
    cases hb : pr.erAndAce with
    | true => have := h.aceLt hb; have := hr.ace hb; linarith
    | false => have := h.errors.zero hb; have := hr.ace0 hb; linarith
  rw [if_neg h1, if_neg h2]

/-- One individuum: the result is kept, or replaced by the figures of an admissible individuum that is
smaller than the best so far. -/
theorem scan_one {N : Nat} {pr : MinProblem m} {maxEr maxAce : ℚ} (hr : GoodRun N pr maxEr maxAce)
    (ind : List ℚ) (hl : (supportPositions pr.original).length ≤ ind.length) (best : GeneticResult) :
    (∃ g er ace, Found N pr maxEr maxAce ind g er ace ∧ nodeCount g < best.nodeCount ∧
      ∀ rest, scanPopulation pr maxEr maxAce pr.erAndAce (ind :: rest) best =
        scanPopulation pr maxEr maxAce pr.erAndAce rest
          ⟨nodeCount g, er, if pr.erAndAce then ace else best.ace⟩) ∨
    ((∀ g er ace, Found N pr maxEr maxAce ind g er ace → best.nodeCount ≤ nodeCount g) ∧
      ∀ rest, scanPopulation pr maxEr maxAce pr.erAndAce (ind :: rest) best =
        scanPopulation pr maxEr maxAce pr.erAndAce rest best) := by
  obtain ⟨g, h1, h2, h3⟩ := fitness_spec pr ind N hr.fits hr.vars hr.both hl
  rcases h3 with ⟨h3, h4⟩ | ⟨h3, er, ace, h4, h5⟩
  · right
    constructor
    · intro g' er ace hF
      have := hF.fn
      rw [h1] at this
      obtain rfl := Except.ok.inj this
      have := hF.less
      omega
    · intro rest
      rw [scanPopulation]
      simp only [h4, bind, Except.bind]
      have : ¬ (100 : ℚ) < maxEr := by have := hr.er100; linarith
      cases hb : pr.erAndAce <;> simp [acceptable, vget, bind, Except.bind, this]
  · by_cases hF : er < maxEr ∧ (pr.erAndAce = true → ace < maxAce)
    · have hF' : Found N pr maxEr maxAce ind g er ace := ⟨h1, h3, h4, hF.1, hF.2⟩
      have hp := punish_found hr hF' (nodeCount g)
      rw [hp] at h5
      by_cases hlt : nodeCount g < best.nodeCount
      · refine .inl ⟨g, er, ace, hF', hlt, fun rest => ?_⟩
        rw [scanPopulation]
        simp only [h5, bind, Except.bind]
        have hq : ((nodeCount g : ℚ)) < best.nodeCount := by exact_mod_cast hlt
        have hneg : ¬ ((nodeCount g : ℚ) ≤ -1) := by
          have : (0 : ℚ) ≤ nodeCount g := by positivity
          linarith
        have hfl : ⌊(nodeCount g : ℚ)⌋.toNat = nodeCount g := by simp
        cases hb : pr.erAndAce with
        | false => simp [acceptable, takeFit, vget, bind, Except.bind, hF.1, hlt, hneg]
        | true => simp [acceptable, takeFit, vget, bind, Except.bind, hF.1, hF.2 hb, hlt, hneg]
      · refine .inr ⟨?_, fun rest => ?_⟩
        · intro g' er' ace' hF2
          have := hF2.fn
          rw [h1] at this
          obtain rfl := Except.ok.inj this
          omega
        · rw [scanPopulation]
          simp only [h5, bind, Except.bind]
          cases hb : pr.erAndAce with
          | false => simp [acceptable, vget, bind, Except.bind, hF.1, hlt]
          | true => simp [acceptable, vget, bind, Except.bind, hF.1, hF.2 hb, hlt]
    · refine .inr ⟨?_, fun rest => ?_⟩
      · intro g' er' ace' hF2
        exfalso
        have := hF2.fn
        rw [h1] at this
        obtain rfl := Except.ok.inj this
        apply hF
        have e1 : er' = er := by rw [hF2.errors.rate, h4.rate]
        refine ⟨by rw [← e1]; exact hF2.erLt, fun hb => ?_⟩
        rw [h4.avg hb, ← hF2.errors.avg hb]
        exact hF2.aceLt hb
      · rw [scanPopulation]
        simp only [h5, bind, Except.bind]
        cases hb : pr.erAndAce with
        | false =>
            have : ¬ er < maxEr := fun h => hF ⟨h, by simp [hb]⟩
            simp [acceptable, vget, bind, Except.bind, this]
        | true =>
            by_cases h6 : er < maxEr
            · have : ¬ ace < maxAce := fun h => hF ⟨h6, fun _ => h⟩
              simp [acceptable, vget, bind, Except.bind, this, h6]
            · simp [acceptable, vget, bind, Except.bind, h6]

/-- The state of the search: nothing found yet, or the figures of an individuum of `seen`. -/
def BestOk (N : Nat) (pr : MinProblem m) (maxEr maxAce : ℚ) (seen : List ℚ → Prop)
    (best : GeneticResult) : Prop :=
  best = noResult ∨ ∃ ind g er ace, seen ind ∧ Found N pr maxEr maxAce ind g er ace ∧
    best = ⟨nodeCount g, er, if pr.erAndAce then ace else 0⟩

theorem BestOk.ace {N : Nat} {pr : MinProblem m} {maxEr maxAce : ℚ} {seen : List ℚ → Prop}
    {best : GeneticResult} (h : BestOk N pr maxEr maxAce seen best) (hb : pr.erAndAce = false) :
    best.ace = 0 := by
  rcases h with rfl | ⟨ind, g, er, ace, -, -, rfl⟩
  · rfl
  · simp [hb]

theorem BestOk.mono {N : Nat} {pr : MinProblem m} {maxEr maxAce : ℚ} {s t : List ℚ → Prop}
    {best : GeneticResult} (hst : ∀ i, s i → t i) (h : BestOk N pr maxEr maxAce s best) :
    BestOk N pr maxEr maxAce t best := by
  rcases h with h | ⟨ind, g, er, ace, h1, h2⟩
  · exact .inl h
  · exact .inr ⟨ind, g, er, ace, hst _ h1, h2⟩

theorem scan_spec {N : Nat} {pr : MinProblem m} {maxEr maxAce : ℚ} (hr : GoodRun N pr maxEr maxAce)
    (seen : List ℚ → Prop) : ∀ (pop : List (List ℚ)) (best : GeneticResult),
    (∀ ind ∈ pop, (supportPositions pr.original).length ≤ ind.length ∧ seen ind) →
    BestOk N pr maxEr maxAce seen best →
    ∃ best', scanPopulation pr maxEr maxAce pr.erAndAce pop best = .ok best' ∧
      BestOk N pr maxEr maxAce seen best' ∧ best'.nodeCount ≤ best.nodeCount ∧
      (best' = best ∨ best'.nodeCount < best.nodeCount) ∧
      ∀ ind ∈ pop, ∀ g er ace, Found N pr maxEr maxAce ind g er ace → best'.nodeCount ≤ nodeCount g
  | [], best, _, hB => ⟨best, rfl, hB, le_refl _, .inl rfl, by simp⟩
  | ind :: rest, best, hp, hB => by
      obtain ⟨hl, hs⟩ := hp ind (by simp)
      have hp' : ∀ ind ∈ rest, (supportPositions pr.original).length ≤ ind.length ∧ seen ind :=
        fun i hi => hp i (by simp [hi])
      rcases scan_one hr ind hl best with ⟨g, er, ace, hF, hlt, he⟩ | ⟨hmin, he⟩
      · have hB' : BestOk N pr maxEr maxAce seen
            ⟨nodeCount g, er, if pr.erAndAce then ace else best.ace⟩ := by
          refine .inr ⟨ind, g, er, ace, hs, hF, ?_⟩
          cases hb : pr.erAndAce with
          | false => simp [hB.ace hb]
          | true => rfl
        obtain ⟨best', h1, h2, h3, -, h5⟩ := scan_spec hr seen rest _ hp' hB'
        dsimp only at h3
        refine ⟨best', by rw [he, h1], h2, by omega, .inr (by omega), fun i hi g' er' ace' hF' => ?_⟩
        rcases List.mem_cons.mp hi with rfl | hi
        · have h6 := hF'.fn
          rw [hF.fn] at h6
          obtain rfl := Except.ok.inj h6
          exact h3
        · exact h5 i hi g' er' ace' hF'
      · obtain ⟨best', h1, h2, h3, h4, h5⟩ := scan_spec hr seen rest best hp' hB
        refine ⟨best', by rw [he, h1], h2, h3, h4, fun i hi g' er' ace' hF' => ?_⟩
        rcases List.mem_cons.mp hi with rfl | hi
        · exact le_trans h3 (hmin g' er' ace' hF')
        · exact h5 i hi g' er' ace' hF'

theorem geneticLoop_spec {N : Nat} {pr : MinProblem m} {maxEr maxAce : ℚ} (hr : GoodRun N pr maxEr maxAce)
    (pops : Nat → List (List ℚ))
    (hp : ∀ k, ∀ ind ∈ pops k, (supportPositions pr.original).length ≤ ind.length) :
    ∀ (fuel k : Nat) (best : GeneticResult),
    (best.nodeCount < fuel ∨ nodeCount pr.original < fuel) → best.nodeCount < 2 ^ 64 →
    BestOk N pr maxEr maxAce (fun ind => ∃ j, j < k ∧ ind ∈ pops j) best →
    (∀ j, j < k → ∀ ind ∈ pops j, ∀ g er ace, Found N pr maxEr maxAce ind g er ace →
      best.nodeCount ≤ nodeCount g) →
    ∃ best' K, geneticLoop pr maxEr maxAce pr.erAndAce pops fuel k best = .ok best' ∧ k < K ∧ K ≤ k + fuel ∧
      BestOk N pr maxEr maxAce (fun ind => ∃ j, j < K ∧ ind ∈ pops j) best' ∧
      (∀ j, j < K → ∀ ind ∈ pops j, ∀ g er ace, Found N pr maxEr maxAce ind g er ace →
        best'.nodeCount ≤ nodeCount g) ∧
      BestOk N pr maxEr maxAce (fun ind => ∃ j, j + 1 < K ∧ ind ∈ pops j) best'
  | 0, k, best, h, _, _, _ => by omega
  | fuel + 1, k, best, h, hb64, hB, hM => by
      have hmono : ∀ i, (∃ j, j < k ∧ i ∈ pops j) → ∃ j, j < k + 1 ∧ i ∈ pops j :=
        fun i ⟨j, h1, h2⟩ => ⟨j, by omega, h2⟩
      obtain ⟨best', h1, h2, h3, h4, h5⟩ := scan_spec hr (fun ind => ∃ j, j < k + 1 ∧ ind ∈ pops j) (pops k) best
        (fun ind hi => ⟨hp k ind hi, k, by omega, hi⟩) (hB.mono hmono)
      have hM' : ∀ j, j < k + 1 → ∀ ind ∈ pops j, ∀ g er ace, Found N pr maxEr maxAce ind g er ace →
          best'.nodeCount ≤ nodeCount g := by
        intro j hj ind hi g er ace hF
        rcases Nat.lt_succ_iff_lt_or_eq.mp hj with hj | rfl
        · exact le_trans h3 (hM j hj ind hi g er ace hF)
        · exact h5 ind hi g er ace hF
      rw [geneticLoop]
      simp only [h1, bind, Except.bind]
      by_cases he : best'.nodeCount = best.nodeCount
      · rw [if_pos he]
        have : best' = best := by
          rcases h4 with h4 | h4
          · exact h4
          · omega
        subst this
        exact ⟨best', k + 1, rfl, by omega, by omega, h2, hM', hB.mono (fun i ⟨j, h1, h2⟩ => ⟨j, by omega, h2⟩)⟩
      · rw [if_neg he]
        have hlt : best'.nodeCount < best.nodeCount := lt_of_le_of_ne h3 he
        have hlt' : best'.nodeCount < nodeCount pr.original := by
          rcases h2 with rfl | ⟨ind, g, er, ace, -, hF, rfl⟩
          · simp only [noResult] at hlt; omega
          · exact hF.less
        obtain ⟨b, K, g1, g2, g3, g4⟩ := geneticLoop_spec hr pops hp fuel (k + 1) best' (by omega) (by omega) h2 hM'
        exact ⟨b, K, g1, by omega, by omega, g4⟩

theorem geneticLoop_mono (pr : MinProblem m) (maxEr maxAce : ℚ) (both : Bool) (pops : Nat → List (List ℚ))
    {r : GeneticResult} : ∀ (fuel fuel' k : Nat) (best : GeneticResult), fuel ≤ fuel' →
    geneticLoop pr maxEr maxAce both pops fuel k best = .ok r →
    geneticLoop pr maxEr maxAce both pops fuel' k best = .ok r
  | 0, _, _, _, _, h => by simp [geneticLoop] at h
  | fuel + 1, 0, _, _, h, _ => by omega
  | fuel + 1, fuel' + 1, k, best, hle, h => by
      rw [geneticLoop] at h ⊢
      simp only [bind, Except.bind] at h ⊢
      cases hs : scanPopulation pr maxEr maxAce both (pops k) best with
      | error e => rw [hs] at h; simp at h
      | ok b =>
          rw [hs] at h
          dsimp only at h ⊢
          by_cases he : b.nodeCount = best.nodeCount
          · rw [if_pos he] at h ⊢; exact h
          · rw [if_neg he] at h ⊢
            exact geneticLoop_mono pr maxEr maxAce both pops fuel fuel' (k + 1) b (by omega) h

theorem punish_nonneg (pr : MinProblem m) {n er ace : ℚ} (hn : 0 ≤ n) (he : 0 ≤ er) (ha : 0 ≤ ace) :
    0 ≤ punish pr n er ace := by
  rw [punish]
  have h1 : 0 ≤ n * (er * 10000 + 50) := by positivity
  have h2 : 0 ≤ (if er > pr.maxErrorRate then n * (er * 10000 + 50) else n) := by split <;> assumption
  split
  · exact mul_nonneg h2 (by positivity)
  · exact h2

theorem fitness_shape (pr : MinProblem m) (params : List ℚ) (N : Nat) (hf : Fits N pr.original)
    (hN : N ≤ 1024) (hb : pr.erAndAce = true → pr.original.length + 1 + N ≤ 256)
    (hl : (supportPositions pr.original).length ≤ params.length) :
    ∃ a b c, fitness pr params = .ok (if pr.erAndAce then [a, b, c] else [a, b]) ∧ 0 ≤ a := by
  obtain ⟨g, -, -, h⟩ := fitness_spec pr params N hf hN hb hl
  have h0 : (0 : ℚ) ≤ nodeCount g := by positivity
  rcases h with ⟨-, h⟩ | ⟨-, er, ace, he, h⟩
  · exact ⟨_, _, _, h, by positivity⟩
  · exact ⟨_, _, _, h, punish_nonneg pr h0 he.rate0 he.avg0⟩

theorem scan_terminates (pr : MinProblem m) (maxEr maxAce : ℚ)
    : ∀ (pop : List (List ℚ)) (best : GeneticResult),
    (∀ ind ∈ pop, ∃ a b c, fitness pr ind = .ok (if pr.erAndAce then [a, b, c] else [a, b]) ∧ 0 ≤ a) →
    ∃ best', scanPopulation pr maxEr maxAce pr.erAndAce pop best = .ok best' ∧
      best'.nodeCount ≤ best.nodeCount
  | [], best, _ => ⟨best, rfl, le_refl _⟩
  | ind :: rest, best, hp => by
      obtain ⟨a, b, c, hf, ha⟩ := hp ind (by simp)
      have hp' := fun i (hi : i ∈ rest) => hp i (by simp [hi])
      have hacc : ∃ t, acceptable maxEr maxAce pr.erAndAce (if pr.erAndAce then [a, b, c] else [a, b]) best = .ok t ∧
          (t = true → a < best.nodeCount) := by
        cases pr.erAndAce with
        | false =>
            by_cases h1 : b < maxEr
            · exact ⟨decide (a < best.nodeCount), by simp [acceptable, vget, bind, Except.bind, h1], by simp⟩
            · exact ⟨false, by simp [acceptable, vget, bind, Except.bind, h1], by simp⟩
        | true =>
            by_cases h1 : b < maxEr
            · by_cases h2 : c < maxAce
              · exact ⟨decide (a < best.nodeCount), by simp [acceptable, vget, bind, Except.bind, h1, h2], by simp⟩
              · exact ⟨false, by simp [acceptable, vget, bind, Except.bind, h1, h2], by simp⟩
            · exact ⟨false, by simp [acceptable, vget, bind, Except.bind, h1], by simp⟩
      obtain ⟨t, ht, hlt⟩ := hacc
      cases t with
      | false =>
          obtain ⟨b', h1, h2⟩ := scan_terminates pr maxEr maxAce rest best hp'
          refine ⟨b', ?_, h2⟩
          rw [scanPopulation]
          simp only [hf, bind, Except.bind, ht, Bool.false_eq_true, if_false, h1]
      | true =>
          have hneg : ¬ a ≤ -1 := by linarith
          have htake : ∃ b1, takeFit pr.erAndAce (if pr.erAndAce then [a, b, c] else [a, b]) best = .ok b1 ∧
              b1.nodeCount = ⌊a⌋.toNat := by
            cases pr.erAndAce <;> simp [takeFit, vget, bind, Except.bind, hneg]
          obtain ⟨b1, h3, h4⟩ := htake
          obtain ⟨b', h1, h2⟩ := scan_terminates pr maxEr maxAce rest b1 hp'
          refine ⟨b', ?_, ?_⟩
          · rw [scanPopulation]
            simp only [hf, bind, Except.bind, ht, if_true, h3, h1]
          · have hfl : ⌊a⌋ < (best.nodeCount : Int) := by
              rw [Int.floor_lt]; exact_mod_cast hlt rfl
            omega

theorem geneticLoop_terminates (pr : MinProblem m) (maxEr maxAce : ℚ) (pops : Nat → List (List ℚ))
    (hp : ∀ k, ∀ ind ∈ pops k, ∃ a b c, fitness pr ind = .ok (if pr.erAndAce then [a, b, c] else [a, b]) ∧ 0 ≤ a) :
    ∀ (fuel k : Nat) (best : GeneticResult), best.nodeCount < fuel →
    ∃ best', geneticLoop pr maxEr maxAce pr.erAndAce pops fuel k best = .ok best'
  | 0, _, _, h => by omega
  | fuel + 1, k, best, h => by
      obtain ⟨b', h1, h2⟩ := scan_terminates pr maxEr maxAce (pops k) best (hp k)
      rw [geneticLoop]
      simp only [h1, bind, Except.bind]
      by_cases he : b'.nodeCount = best.nodeCount
      · rw [if_pos he]; exact ⟨b', rfl⟩
      · rw [if_neg he]
        exact geneticLoop_terminates pr maxEr maxAce pops hp fuel (k + 1) b' (by omega)

theorem initLoop_spec (rs : Nat → Nat) : ∀ (c k : Nat) (data : List ℚ), data ≠ [] →
    ∃ d, initLoop rs c k data = .ok d ∧ d.length = data.length ∧
      (∀ q ∈ d, q ∈ data ∨ q = 1 ∨ q = 2) ∧
      d.countP (· ≠ 0) ≤ data.countP (· ≠ 0) + c
  | 0, k, data, _ => ⟨data, rfl, rfl, fun q h => .inl h, by omega⟩
  | c + 1, k, data, hne => by
      have hl : 0 < data.length := List.length_pos_iff.mpr hne
      have hi := Nat.mod_lt (rs (k + 1)) hl
      generalize hid : rs (k + 1) % data.length = i at hi
      have hv : (1 + ((rs k % 2 : Nat) : ℚ)) = 1 ∨ (1 + ((rs k % 2 : Nat) : ℚ)) = 2 := by
        rcases Nat.mod_two_eq_zero_or_one (rs k) with h | h <;> rw [h] <;> norm_num
      generalize hqd : (1 + ((rs k % 2 : Nat) : ℚ)) = q at hv
      obtain ⟨d, h1, h2, h3, h4⟩ := initLoop_spec rs c (k + 2) (data.set i q) (by
        intro h
        have := congrArg List.length h
        simp at this
        exact hne this)
      refine ⟨d, ?_, by simpa using h2, ?_, ?_⟩
      · rw [initLoop, if_neg (by omega)]
        simp only [hid, vset, if_pos hi, bind, Except.bind, hqd]
        exact h1
      · intro p hp
        rcases h3 p hp with h | h
        · rcases List.mem_or_eq_of_mem_set h with h | rfl
          · exact .inl h
          · exact .inr hv
        · exact .inr h
      · rw [List.countP_set hi] at h4
        have : (if decide (q ≠ 0) = true then 1 else 0) ≤ 1 := by split <;> omega
        split at h4 <;> omega

theorem initLoop_ub (rs : Nat → Nat) (c k : Nat) : initLoop rs (c + 1) k [] = .error .ub := by
  rw [initLoop, if_pos List.length_nil]

end Verif

import Verif.Proofs.FloatBucket
import Verif.Props.Bucket

/-! # C109 the grid of the bucket search on `double`s -/

namespace Verif

variable {m : Mgr} {rnd : ℚ → ℚ}

/-! ## One coordinate -/

/-- The coordinate of an error is right up to two units in the last place: with coordinate `k`, the error is between
`k` and `k + 1` parts of the bound, up to a relative error of `2 ^ -51`. -/
theorem C109_coordinate (hr : Nearest rnd) (g : Nat) (e b : ℚ) (k : Nat) (hg0 : 0 < g) (hg : g ≤ 2 ^ 53) (he0 : 0 ≤ e)
    (he : e ≤ 2 ^ 900) (hb : 1 / 2 ^ 60 ≤ b) (hb' : b ≤ 2 ^ 900) (hbd : IsDouble b)
    (h : toSizeT (coordinateF rnd g e b) = .ok k) :
    b * k / g ≤ e * (1 + 1 / 2 ^ 51) ∧ e < b * (k + 1) / g * (1 + 1 / 2 ^ 51) := by
  have hb0 : (0 : ℚ) < b := lt_of_lt_of_le (by norm_num) hb
  have hgq : (0 : ℚ) < g := by exact_mod_cast hg0
  obtain ⟨h1, h2⟩ := toSizeT_ok h
  by_cases hn : b / 2 ≤ g * e
  · obtain ⟨r1, r2⟩ := coordinateF_rel hr hg ((abs_of_nonneg he0).trans_le he) hb hn
    constructor
    · by_cases hk : k = 0
      · subst hk
        rw [Nat.cast_zero, mul_zero, zero_div]
        exact mul_nonneg he0 (by norm_num)
      · have := (h2 hk).trans r1
        rw [div_le_iff₀ hgq]
        calc b * k ≤ b * (g * e / b * (1 + 1 / 2 ^ 51)) := mul_le_mul_of_nonneg_left this hb0.le
          _ = e * (1 + 1 / 2 ^ 51) * g := by rw [← mul_assoc, mul_div_cancel₀ _ hb0.ne']; ring
    · exact coordinateF_lt hr hg0 hg ((abs_of_nonneg he0).trans_le he) hb h1
  · have hn' := not_le.mp hn
    have hp0 : (0 : ℚ) ≤ g * e := mul_nonneg hgq.le he0
    have hk : k = 0 := by
      by_contra hk
      have hc := h2 hk
      have hx : rnd (g * e) ≤ b / 2 := by
        refine hr.rnd_le ?_ (isDouble_half hbd (le_trans ?_ hb)) hn'.le
        · rw [abs_of_nonneg hp0]
          refine hn'.le.trans ((half_le_self hb0.le).trans (hb'.trans (pow_le_big (by norm_num))))
        · exact one_div_le_one_div_of_le (pow_pos (by norm_num) _) (pow_le_big (by norm_num))
      have hx0 : 0 ≤ rnd (g * e) := hr.nonneg hp0
        (hn'.le.trans ((half_le_self hb0.le).trans (hb'.trans (pow_le_big (by norm_num)))))
      have hq : rnd (g * e) / b ≤ 1 / 2 := by rw [div_le_iff₀ hb0]; linarith
      have hq0 : 0 ≤ rnd (g * e) / b := div_nonneg hx0 hb0.le
      have hcc : coordinateF rnd g e b ≤ 1 / 2 := by
        unfold coordinateF
        rw [hr.small g hg]
        refine hr.rnd_le ?_ ?_ hq
        · rw [abs_of_nonneg hq0]
          exact hq.trans ((by norm_num : (1 : ℚ) / 2 ≤ 2).trans two_le_big)
        · simpa using isDouble_nat_div 1 1 (by norm_num) (by norm_num)
      have : (1 : ℚ) ≤ k := by exact_mod_cast Nat.one_le_iff_ne_zero.mpr hk
      linarith
    subst hk
    rw [Nat.cast_zero, mul_zero, zero_div, zero_add, mul_one]
    refine ⟨mul_nonneg he0 (by norm_num), ?_⟩
    have h4 : e < b / g := by
      rw [lt_div_iff₀ hgq]
      linarith
    refine h4.trans_le ?_
    have : 0 < b / g := div_pos hb0 hgq
    linarith

/-- When the product of grid size and error is a `double`, an error is never put below its place: with coordinate
`k` it is less than `k + 1` parts of the bound. -/
theorem C109_coordinate_exact (hr : Nearest rnd) (g : Nat) (e b : ℚ) (k : Nat) (hg0 : 0 < g) (hg : g ≤ 2 ^ 53)
    (hb : 1 / 2 ^ 60 ≤ b) (he : |e| ≤ 2 ^ 900) (hge : IsDouble (g * e)) (hk : k < 2 ^ 53)
    (h : toSizeT (coordinateF rnd g e b) = .ok k) : e < b * (k + 1) / g := by
  exact coordinateF_lt_exact hr hg0 hg hb he hge hk (toSizeT_ok h).1

/-- Nothing is rounded when both the product and the quotient are `double`s. -/
theorem C109_coordinate_same (hr : Nearest rnd) (g : Nat) (e b : ℚ) (hg : g ≤ 2 ^ 53) (hge : IsDouble (g * e))
    (hq : IsDouble (g * e / b)) (h1 : |(g : ℚ) * e| ≤ 2 ^ 1023) (h2 : |(g : ℚ) * e / b| ≤ 2 ^ 1023) :
    coordinateF rnd g e b = g * e / b := by
  unfold coordinateF
  rw [hr.small g hg, hr.exact hge h1, hr.exact hq h2]

/-- The next bucket is chosen by sums of coordinates on `double`s; unless the grid has more than `2 ^ 53` cells along
its sides they are exact, and it is the one that exact sums give. -/
theorem C109_min_element (hr : Nearest rnd) (grid : List Nat) (hg : grid.sum ≤ 2 ^ 53) (w : List Nat)
    (ws : List (List Nat)) (h : ∀ v ∈ w :: ws, InBox v grid) : minElementF rnd w ws = minElement w ws :=
  minElementF_eq hr w ws fun v hv => (h v hv).sum_le.trans hg

example (hr : Nearest rnd) : minElementF rnd [0, 3] [[1, 1], [2, 0], [3, 0]] = [1, 1] := by
  rw [C109_min_element hr [4, 4] (by simp) _ _ (by simp [InBox])]
  decide +kernel

/-- An error of 3/16 on a grid of 4 cells up to 1/2. -/
example : ∃ rnd, Nearest rnd ∧ toSizeT (coordinateF rnd 4 (3 / 16) (1 / 2)) = .ok 1 ∧ IsDouble (1 / 2) ∧
    IsDouble ((4 : Nat) * (3 / 16)) := by
  obtain ⟨rnd, hr⟩ := exists_nearest
  have h1 : IsDouble ((4 : Nat) * (3 / 16)) := by
    have := isDouble_nat_div 3 2 (by norm_num) (by norm_num)
    norm_num at this ⊢
    exact this
  have h2 : IsDouble ((4 : Nat) * (3 / 16) / (1 / 2)) := by
    have := isDouble_nat_div 3 1 (by norm_num) (by norm_num)
    norm_num at this ⊢
    exact this
  refine ⟨rnd, hr, ?_, by simpa using isDouble_nat_div 1 1 (by norm_num) (by norm_num), h1⟩
  rw [C109_coordinate_same hr 4 (3 / 16) (1 / 2) (by norm_num) h1 h2 ((by norm_num [abs_of_pos] : _ ≤ (2 : ℚ)).trans two_le_big)
    ((by norm_num [abs_of_pos] : _ ≤ (2 : ℚ)).trans two_le_big)]
  decide +kernel

/-! ## The whole search -/

/-- A run on `double`s with the run of the exact search it follows. -/
theorem follows {fuel : Nat} {f : List (BDD m)} {ms : List (MetricDim m)} {ops : List (OpFun m)} {populate : Bool}
    {r : List (Bucket m)} (h : bucketGreedyMinimizeF rnd fuel f ms ops populate = .ok r) :
    (∀ d ∈ ms, d.gridSize ≠ 0) ∧ ∃ r', bucketGreedyMinimize fuel f (ms.map (shadow rnd)) ops populate = .ok r' ∧
      List.Forall₂ (BRel (fun _ _ => True) ops f ms) r r' := by
  have hpos : ∀ d ∈ ms, d.gridSize ≠ 0 := by
    intro d hd h0
    unfold bucketGreedyMinimizeF at h
    split at h
    · cases h
    · dsimp only at h
      rw [createIndex_zero (by rw [← h0]; exact List.mem_map_of_mem hd)] at h
      cases h
  exact ⟨hpos, (bucketGreedyMinimizeF_rel (shadow_rel rnd ops f hpos) trivial populate fuel).ok h⟩

theorem shadow_grids (ms : List (MetricDim m)) : (ms.map (shadow rnd)).map (·.gridSize) = ms.map (·.gridSize) := by
  rw [List.map_map]
  rfl

theorem getElem?_forall₂ {α β : Type _} {R : α → β → Prop} {l : List α} {l' : List β} (h : List.Forall₂ R l l')
    {i : Nat} {a : α} (ha : l[i]? = some a) : ∃ b, l'[i]? = some b ∧ R a b := by
  have hi := lt_of_getElem? ha
  have hi' : i < l'.length := h.length_eq ▸ hi
  refine ⟨_, List.getElem?_eq_getElem hi', ?_⟩
  rw [List.getElem?_eq_getElem hi, Option.some.injEq] at ha
  rw [← ha]
  exact (List.forall₂_iff_get.mp h).2 i hi hi'

/-- What a filled bucket says of a metric: its true value, with a coordinate not above that of the bucket. -/
theorem follows_values {fuel : Nat} {f : List (BDD m)} {ms : List (MetricDim m)} {ops : List (OpFun m)}
    {populate : Bool} {r : List (Bucket m)} (hprod : (ms.map (·.gridSize)).prod < 2 ^ 64)
    (hbound : ∀ d ∈ ms, 0 < d.bound) (h : bucketGreedyMinimizeF rnd fuel f ms ops populate = .ok r) :
    r.length = (ms.map (·.gridSize)).prod ∧
    ∀ idx b, InBox idx (ms.map (·.gridSize)) → r[rank (ms.map (·.gridSize)) idx]? = some b →
      b.isEmpty = false → b.metricValues.length = ms.length ∧ Reach ops f b.function ∧
      ∀ (k : Nat) (d : MetricDim m) (i : Nat) (v : ℚ), ms[k]? = some d → idx[k]? = some i →
        b.metricValues[k]? = some v → d ∈ ms ∧ 0 < d.gridSize ∧ i < d.gridSize ∧ d.metric f b.function = .ok v ∧
          coordinateF rnd d.gridSize v d.bound < i + 1 := by
  obtain ⟨hpos, r', hr', hrel⟩ := follows h
  obtain ⟨c1, c2⟩ := C57_error_bounds fuel f _ ops populate r' (by rwa [shadow_grids])
    (fun d hd => by obtain ⟨e, he, rfl⟩ := List.mem_map.mp hd; exact hbound e he) hr'
  rw [shadow_grids] at c1 c2
  refine ⟨by rw [hrel.length_eq, c1], fun idx b hbox hb hne => ?_⟩
  obtain ⟨b', hb', hbb⟩ := getElem?_forall₂ hrel hb
  have hfull := hbb.full hne
  obtain ⟨c3, c4⟩ := c2 idx b' hbox hb' (hbb.empty.trans hne)
  refine ⟨hfull.length_eq.symm, hbb.reach, fun k d i v hd hi hv => ?_⟩
  have hdm := List.mem_of_getElem? hd
  have hmet : d.metric f b.function = .ok v := by
    obtain ⟨v', hv', hm⟩ := getElem?_forall₂ hfull hd
    rw [hv] at hv'
    cases hv'
    exact hm
  have hg : (0 : ℚ) < d.gridSize := by exact_mod_cast Nat.pos_of_ne_zero (hpos d hdm)
  have hkl : k < b'.metricValues.length := by
    rw [c3, List.length_map]
    exact lt_of_getElem? hd
  have hsh : (ms.map (shadow rnd))[k]? = some (shadow rnd d) := by rw [List.getElem?_map, hd]; rfl
  obtain ⟨e1, e2, -⟩ := c4 k _ i _ hsh hi (List.getElem?_eq_getElem hkl)
  have e3 : (shadow rnd d).metric f b'.function =
      .ok (coordinateF rnd d.gridSize v d.bound * d.bound / d.gridSize) := by
    rw [hbb.function]
    unfold shadow
    dsimp only
    rw [hmet]
    rfl
  rw [e3, Except.ok.injEq] at e1
  rw [← e1] at e2
  change _ < d.bound * (i + 1) / d.gridSize at e2
  rw [div_lt_div_iff_of_pos_right hg, mul_comm] at e2
  refine ⟨hdm, Nat.pos_of_ne_zero (hpos d hdm), ?_, hmet, lt_of_mul_lt_mul_left e2 (hbound d hdm).le⟩
  obtain ⟨j, hj, hlt⟩ := getElem?_forall₂ hbox hi
  rw [List.getElem?_map, hd] at hj
  cases hj
  exact hlt

/-- The errors of a filled bucket are the true ones, and below the limits of its place in the grid up to a relative
error of `2 ^ -51`: the limits are kept up to rounding. -/
theorem C109_error_bounds (hr : Nearest rnd) (fuel : Nat) (f : List (BDD m)) (ms : List (MetricDim m))
    (ops : List (OpFun m)) (populate : Bool) (r : List (Bucket m))
    (hprod : (ms.map (·.gridSize)).prod < 2 ^ 64) (hgrid : ∀ d ∈ ms, d.gridSize ≤ 2 ^ 53)
    (hbound : ∀ d ∈ ms, 1 / 2 ^ 60 ≤ d.bound)
    (hval : ∀ d ∈ ms, ∀ g v, Reach ops f g → d.metric f g = .ok v → |v| ≤ 2 ^ 900)
    (h : bucketGreedyMinimizeF rnd fuel f ms ops populate = .ok r) :
    r.length = (ms.map (·.gridSize)).prod ∧
    ∀ idx b, InBox idx (ms.map (·.gridSize)) → r[rank (ms.map (·.gridSize)) idx]? = some b →
      b.isEmpty = false → b.metricValues.length = ms.length ∧
      ∀ (k : Nat) (d : MetricDim m) (i : Nat) (v : ℚ), ms[k]? = some d → idx[k]? = some i →
        b.metricValues[k]? = some v → d.metric f b.function = .ok v ∧
          v < d.bound * (i + 1) / d.gridSize * (1 + 1 / 2 ^ 51) ∧ v < d.bound * (1 + 1 / 2 ^ 51) := by
  have hb0 : ∀ d ∈ ms, 0 < d.bound := fun d hd => lt_of_lt_of_le (by norm_num) (hbound d hd)
  obtain ⟨h1, h2⟩ := follows_values hprod hb0 h
  refine ⟨h1, fun idx b hbox hb hne => ?_⟩
  obtain ⟨h3, h4, h5⟩ := h2 idx b hbox hb hne
  refine ⟨h3, fun k d i v hd hi hv => ?_⟩
  obtain ⟨hdm, hg0, hlt, hmet, hc⟩ := h5 k d i v hd hi hv
  have := coordinateF_lt hr hg0 (hgrid d hdm) (hval d hdm _ v h4 hmet) (hbound d hdm) hc
  refine ⟨hmet, this, this.trans_le ?_⟩
  refine mul_le_mul_of_nonneg_right ?_ (by norm_num)
  rw [div_le_iff₀ (by exact_mod_cast hg0)]
  exact mul_le_mul_of_nonneg_left (by exact_mod_cast hlt) (hb0 d hdm).le

/-- When the products of grid size and error are `double`s the limits are kept exactly, as without rounding (C57). -/
theorem C109_error_bounds_exact (hr : Nearest rnd) (fuel : Nat) (f : List (BDD m)) (ms : List (MetricDim m))
    (ops : List (OpFun m)) (populate : Bool) (r : List (Bucket m))
    (hprod : (ms.map (·.gridSize)).prod < 2 ^ 64) (hgrid : ∀ d ∈ ms, d.gridSize ≤ 2 ^ 53)
    (hbound : ∀ d ∈ ms, 1 / 2 ^ 60 ≤ d.bound)
    (hval : ∀ d ∈ ms, ∀ g v, Reach ops f g → d.metric f g = .ok v → |v| ≤ 2 ^ 900 ∧ IsDouble (d.gridSize * v))
    (h : bucketGreedyMinimizeF rnd fuel f ms ops populate = .ok r) :
    r.length = (ms.map (·.gridSize)).prod ∧
    ∀ idx b, InBox idx (ms.map (·.gridSize)) → r[rank (ms.map (·.gridSize)) idx]? = some b →
      b.isEmpty = false → b.metricValues.length = ms.length ∧
      ∀ (k : Nat) (d : MetricDim m) (i : Nat) (v : ℚ), ms[k]? = some d → idx[k]? = some i →
        b.metricValues[k]? = some v → d.metric f b.function = .ok v ∧
          v < d.bound * (i + 1) / d.gridSize ∧ v < d.bound := by
  have hb0 : ∀ d ∈ ms, 0 < d.bound := fun d hd => lt_of_lt_of_le (by norm_num) (hbound d hd)
  obtain ⟨h1, h2⟩ := follows_values hprod hb0 h
  refine ⟨h1, fun idx b hbox hb hne => ?_⟩
  obtain ⟨h3, h4, h5⟩ := h2 idx b hbox hb hne
  refine ⟨h3, fun k d i v hd hi hv => ?_⟩
  obtain ⟨hdm, hg0, hlt, hmet, hc⟩ := h5 k d i v hd hi hv
  obtain ⟨v1, v2⟩ := hval d hdm _ v h4 hmet
  have := coordinateF_lt_exact hr hg0 (hgrid d hdm) (hbound d hdm) v1 v2 (hlt.trans_le (hgrid d hdm)) hc
  refine ⟨hmet, this, this.trans_le ?_⟩
  rw [div_le_iff₀ (by exact_mod_cast hg0)]
  exact mul_le_mul_of_nonneg_left (by exact_mod_cast hlt) (hb0 d hdm).le

/-- However the coordinates are rounded: buckets hold functions made from the original one by operators, with their
sizes; a filled bucket is smaller than the original, an empty one holds it. -/
theorem C109_sizes (fuel : Nat) (f : List (BDD m)) (ms : List (MetricDim m))
    (ops : List (OpFun m)) (populate : Bool) (r : List (Bucket m))
    (hprod : (ms.map (·.gridSize)).prod < 2 ^ 64)
    (h : bucketGreedyMinimizeF rnd fuel f ms ops populate = .ok r) :
    ∀ b ∈ r, Reach ops f b.function ∧ b.bddSize = nodeCount b.function ∧ b.bddSize ≤ nodeCount f ∧
      (b.isEmpty = false → b.bddSize < nodeCount f) ∧ (b.isEmpty = true → b.function = f) := by
  obtain ⟨-, r', hr', hrel⟩ := follows h
  intro b hb
  obtain ⟨i, hi⟩ := List.mem_iff_getElem?.mp hb
  obtain ⟨b', hb', hbb⟩ := getElem?_forall₂ hrel hi
  have := C58_sizes fuel f _ ops populate r' (by rwa [shadow_grids]) hr' b' (List.mem_of_getElem? hb')
  rw [hbb.function, hbb.size, hbb.empty] at this
  exact ⟨hbb.reach, this⟩

/-- However the coordinates are rounded: with larger coordinates the function found is not larger. -/
theorem C109_front (fuel : Nat) (f : List (BDD m)) (ms : List (MetricDim m))
    (ops : List (OpFun m)) (r : List (Bucket m)) (hprod : (ms.map (·.gridSize)).prod < 2 ^ 64)
    (h : bucketGreedyMinimizeF rnd fuel f ms ops true = .ok r) (i j : List Nat)
    (hi : InBox i (ms.map (·.gridSize))) (hj : InBox j (ms.map (·.gridSize))) (hij : LeIdx i j) :
    ∃ b c, r[rank (ms.map (·.gridSize)) i]? = some b ∧ r[rank (ms.map (·.gridSize)) j]? = some c ∧
      c.bddSize ≤ b.bddSize := by
  obtain ⟨-, r', hr', hrel⟩ := follows h
  obtain ⟨b', c', h1, h2, h3⟩ := C59_front fuel f _ ops r' (by rwa [shadow_grids]) hr' i j
    (by rwa [shadow_grids]) (by rwa [shadow_grids]) hij
  rw [shadow_grids] at h1 h2
  obtain ⟨b, hb, hbb⟩ := getElem?_forall₂ (List.Forall₂.flip hrel) h1
  obtain ⟨c, hc, hcc⟩ := getElem?_forall₂ (List.Forall₂.flip hrel) h2
  exact ⟨b, c, hb, hc, by rw [← hbb.size, ← hcc.size]; exact h3⟩

/-- However the coordinates are rounded, the search ends. -/
theorem C109_terminates (f : List (BDD m)) (ms : List (MetricDim m)) (ops : List (OpFun m))
    (populate : Bool) (hop : ∀ op ∈ ops, ∀ g, op g ≠ .error .fuel)
    (hm : ∀ d ∈ ms, ∀ g, d.metric f g ≠ .error .fuel) (fuel : Nat)
    (hfuel : (ms.map (·.gridSize)).prod * nodeCount f + 1 ≤ fuel) :
    bucketGreedyMinimizeF rnd fuel f ms ops populate ≠ .error .fuel := by
  intro h
  by_cases hpos : ∀ d ∈ ms, d.gridSize ≠ 0
  · have hrel := bucketGreedyMinimizeF_rel (shadow_rel rnd ops f hpos) trivial populate fuel
    rw [h] at hrel
    cases he : bucketGreedyMinimize fuel f (ms.map (shadow rnd)) ops populate with
    | ok r => rw [he] at hrel; exact hrel.elim
    | error e =>
      rw [he] at hrel
      have hrel : Fault.fuel = e := hrel
      subst hrel
      refine C56_terminates f _ ops populate hop (fun d hd g hg => ?_) fuel (by rwa [shadow_grids]) he
      obtain ⟨e, he, rfl⟩ := List.mem_map.mp hd
      unfold shadow at hg
      dsimp only at hg
      cases hv : e.metric f g with
      | ok v => rw [hv] at hg; cases hg
      | error e' => rw [hv] at hg; cases hg; exact hm e he g hv
  · simp only [not_forall, not_not] at hpos
    obtain ⟨d, hd, h0⟩ := hpos
    unfold bucketGreedyMinimizeF at h
    split at h
    · cases h
    · dsimp only at h
      rw [createIndex_zero (by rw [← h0]; exact List.mem_map_of_mem hd)] at h
      cases h

/-- The search returns when operators and metrics are defined on all functions that can come up and the rounded
coordinates are in the range of `std::size_t`. -/
theorem C109_returns (f : List (BDD m)) (ms : List (MetricDim m)) (ops : List (OpFun m)) (populate : Bool)
    (hne : ms ≠ []) (hpos : ∀ d ∈ ms, 0 < d.gridSize) (hprod : (ms.map (·.gridSize)).prod < 2 ^ 64)
    (hop : ∀ g, Reach ops f g → ∀ op ∈ ops, ∃ h, op g = .ok h)
    (hm : ∀ g, Reach ops f g → ∀ d ∈ ms, d.bound ≠ 0 ∧ ∃ v, d.metric f g = .ok v ∧
      0 ≤ coordinateF rnd d.gridSize v d.bound ∧ coordinateF rnd d.gridSize v d.bound < 2 ^ 64) (fuel : Nat)
    (hfuel : (ms.map (·.gridSize)).prod * nodeCount f + 1 ≤ fuel) :
    ∃ r, bucketGreedyMinimizeF rnd fuel f ms ops populate = .ok r := by
  obtain ⟨r', hr'⟩ := C56_returns f (ms.map (shadow rnd)) ops populate (by simpa using hne)
    (fun d hd => by obtain ⟨e, he, rfl⟩ := List.mem_map.mp hd; exact hpos e he) (by rwa [shadow_grids]) hop
    (fun g hg d hd => by
      obtain ⟨e, he, rfl⟩ := List.mem_map.mp hd
      obtain ⟨h1, v, h2, h3, h4⟩ := hm g hg e he
      refine ⟨h1, coordinateF rnd e.gridSize v e.bound * e.bound / e.gridSize, ?_, ?_⟩
      · unfold shadow
        dsimp only
        rw [h2]
        rfl
      · have hg : (e.gridSize : ℚ) ≠ 0 := by exact_mod_cast (hpos e he).ne'
        change 0 ≤ (e.gridSize : ℚ) * _ / e.bound ∧ (e.gridSize : ℚ) * _ / e.bound < 2 ^ 64
        rw [mul_div_cancel₀ _ hg, mul_div_cancel_right₀ _ h1]
        exact ⟨h3, h4⟩)
  have hrel := bucketGreedyMinimizeF_rel (shadow_rel rnd ops f (fun d hd => (hpos d hd).ne')) trivial populate fuel
  rw [shadow_grids] at hr'
  rw [hr' fuel hfuel] at hrel
  cases he : bucketGreedyMinimizeF rnd fuel f ms ops populate with
  | ok r => exact ⟨r, rfl⟩
  | error e => rw [he] at hrel; exact hrel.elim

/-- Where no coordinate of a function that can be reached is rounded, the search is the exact one. -/
theorem C109_same (hr : Nearest rnd) (fuel : Nat) (f : List (BDD m)) (ms : List (MetricDim m))
    (ops : List (OpFun m)) (populate : Bool) (hgrid : ∀ d ∈ ms, d.gridSize ≤ 2 ^ 53)
    (hval : ∀ d ∈ ms, ∀ g v, Reach ops f g → d.metric f g = .ok v →
      IsDouble (d.gridSize * v) ∧ IsDouble (d.gridSize * v / d.bound) ∧ |(d.gridSize : ℚ) * v| ≤ 2 ^ 1023 ∧
      |(d.gridSize : ℚ) * v / d.bound| ≤ 2 ^ 1023) :
    bucketGreedyMinimizeF rnd fuel f ms ops populate = bucketGreedyMinimize fuel f ms ops populate := by
  have hdim : List.Forall₂ (DimRel rnd Eq ops f) ms ms := by
    rw [List.forall₂_same]
    intro d hd
    refine ⟨rfl, Iff.rfl, fun g hg => ?_⟩
    cases hv : d.metric f g with
    | error e => rfl
    | ok v =>
      obtain ⟨h1, h2, h3, h4⟩ := hval d hd g v hg hv
      exact ⟨fun _ => .inl <| by rw [C109_coordinate_same hr _ _ _ (hgrid d hd) h1 h2 h3 h4], rfl⟩
  refine ((bucketGreedyMinimizeF_rel hdim rfl populate fuel).mono fun a b hab => ?_).eq
  rw [← List.forall₂_eq_eq_eq]
  exact hab.imp fun x y hxy => hxy.eq.symm

/-! ## Where rounding shows -/

/-- The constant 0.289 as a `double`. -/
def double0289 : ℚ := 5206161169240293 / 2 ^ 54

/-- The constant 0.101 as a `double`, and the one before it. -/
def double0101 : ℚ := 7277816997830722 / 2 ^ 56
def before0101 : ℚ := 7277816997830721 / 2 ^ 56

theorem le_big {q : ℚ} (h : |q| ≤ 2) : |q| ≤ 2 ^ 1023 := h.trans two_le_big

theorem le_big16 {q : ℚ} (h : |q| ≤ 16) : |q| ≤ 2 ^ 1023 :=
  h.trans ((by norm_num : (16 : ℚ) ≤ 2 ^ 4).trans (pow_le_big (by norm_num)))

/-- For every rounding to nearest: on a grid of 7 cells an error equal to a bound of 0.289 has coordinate 6. -/
theorem C109_accepts (hr : Nearest rnd) : IsDouble double0289 ∧
    toSizeT (coordinateF rnd 7 double0289 double0289) = .ok 6 := by
  refine ⟨by simpa [double0289] using isDouble_nat_div 5206161169240293 54 (by norm_num) (by norm_num), ?_⟩
  have hx : rnd (7 * double0289) = 4555391023085256 / 2 ^ 51 := by
    have hbig : |7 * double0289| ≤ 2 ^ 1023 := le_big16 (by unfold double0289; norm_num [abs_of_pos])
    have hd : IsDouble (4555391023085256 / 2 ^ 51 : ℚ) := by
      simpa using isDouble_nat_div 4555391023085256 51 (by norm_num) (by norm_num)
    have hn := abs_le.mp (hr.near _ _ hbig hd)
    have e : |(4555391023085256 / 2 ^ 51 : ℚ) - 7 * double0289| = 3 / 2 ^ 54 := by
      unfold double0289
      rw [abs_of_neg (by norm_num)]
      norm_num
    rw [e] at hn
    have hlo : (2 : ℚ) ^ (1 : ℤ) < rnd (7 * double0289) := by
      have := hn.1
      unfold double0289 at this ⊢
      norm_num at this ⊢
      linarith
    obtain ⟨j, hj⟩ := (hr.isDouble _ hbig).spacing hlo
    rw [hj] at hn ⊢
    have e2 : (2 : ℚ) ^ ((1 : ℤ) - 52) = 1 / 2 ^ 51 := by norm_num
    rw [e2] at hn ⊢
    unfold double0289 at hn
    have j1 : (j : ℚ) < 4555391023085257 := by
      have := hn.2
      norm_num at this
      linarith
    have j2 : (4555391023085255 : ℚ) < j := by
      have := hn.1
      norm_num at this
      linarith
    have j1' : j < 4555391023085257 := by exact_mod_cast j1
    have j2' : 4555391023085255 < j := by exact_mod_cast j2
    obtain rfl : j = 4555391023085256 := by omega
    norm_num
  have h7 : rnd ((7 : Nat) : ℚ) = 7 := by
    have := hr.small 7 (by norm_num)
    simpa using this
  have hc : coordinateF rnd 7 double0289 double0289 = rnd (4555391023085256 / 2 ^ 51 / double0289) := by
    unfold coordinateF
    rw [h7, hx]
  have hbig : |(4555391023085256 / 2 ^ 51 / double0289 : ℚ)| ≤ 2 ^ 1023 :=
    le_big16 (by unfold double0289; norm_num [abs_of_pos])
  have hd7 : IsDouble (7881299347898367 / 2 ^ 50 : ℚ) := by
    simpa using isDouble_nat_div 7881299347898367 50 (by norm_num) (by norm_num)
  have hn := abs_le.mp (hr.near _ _ hbig hd7)
  have hlt : rnd (4555391023085256 / 2 ^ 51 / double0289) < 7 := by
    have e : |(7881299347898367 / 2 ^ 50 : ℚ) - 4555391023085256 / 2 ^ 51 / double0289| <
        7 - 4555391023085256 / 2 ^ 51 / double0289 := by
      unfold double0289
      rw [abs_lt]
      norm_num
    linarith [hn.2]
  have hge : ((6 : Nat) : ℚ) ≤ rnd (4555391023085256 / 2 ^ 51 / double0289) :=
    hr.le_rnd hbig (isDouble_small 6 (by norm_num)) (by unfold double0289; norm_num)
  rw [hc]
  generalize rnd (4555391023085256 / 2 ^ 51 / double0289) = y at hlt hge
  push_cast at hge
  unfold toSizeT
  have hfl : ⌊y⌋ = 6 := by
    rw [Int.floor_eq_iff]
    push_cast
    exact ⟨hge, by linarith⟩
  rw [if_neg (by rintro (h | h) <;> [linarith; (norm_num at h; linarith)]), hfl]
  rfl

/-- For every rounding to nearest: on a grid of 10 cells an error below a bound of 0.101 has coordinate 10. -/
theorem C109_rejects (hr : Nearest rnd) : IsDouble double0101 ∧ IsDouble before0101 ∧ before0101 < double0101 ∧
    toSizeT (coordinateF rnd 10 before0101 double0101) = .ok 10 := by
  refine ⟨by simpa [double0101] using isDouble_nat_div 7277816997830722 56 (by norm_num) (by norm_num),
    by simpa [before0101] using isDouble_nat_div 7277816997830721 56 (by norm_num) (by norm_num),
    by unfold before0101 double0101; norm_num, ?_⟩
  have hx : rnd (10 * before0101) = 4548635623644201 / 2 ^ 52 := by
    have hbig : |10 * before0101| ≤ 2 ^ 1023 := le_big16 (by unfold before0101; norm_num [abs_of_pos])
    have hd : IsDouble (4548635623644201 / 2 ^ 52 : ℚ) := by
      simpa using isDouble_nat_div 4548635623644201 52 (by norm_num) (by norm_num)
    have hn := abs_le.mp (hr.near _ _ hbig hd)
    have e : |(4548635623644201 / 2 ^ 52 : ℚ) - 10 * before0101| = 3 / 2 ^ 55 := by
      unfold before0101
      rw [abs_of_pos (by norm_num)]
      norm_num
    rw [e] at hn
    have hlo : (2 : ℚ) ^ (0 : ℤ) < rnd (10 * before0101) := by
      have := hn.1
      unfold before0101 at this ⊢
      norm_num at this ⊢
      linarith
    obtain ⟨j, hj⟩ := (hr.isDouble _ hbig).spacing hlo
    rw [hj] at hn ⊢
    have e2 : (2 : ℚ) ^ ((0 : ℤ) - 52) = 1 / 2 ^ 52 := by norm_num
    rw [e2] at hn ⊢
    unfold before0101 at hn
    have j1 : (j : ℚ) < 4548635623644202 := by
      have := hn.2
      norm_num at this
      linarith
    have j2 : (4548635623644200 : ℚ) < j := by
      have := hn.1
      norm_num at this
      linarith
    have j1' : j < 4548635623644202 := by exact_mod_cast j1
    have j2' : 4548635623644200 < j := by exact_mod_cast j2
    obtain rfl : j = 4548635623644201 := by omega
    norm_num
  have h10 : rnd ((10 : Nat) : ℚ) = 10 := by
    have := hr.small 10 (by norm_num)
    simpa using this
  have hc : coordinateF rnd 10 before0101 double0101 = rnd (4548635623644201 / 2 ^ 52 / double0101) := by
    unfold coordinateF
    rw [h10, hx]
  have hbig : |(4548635623644201 / 2 ^ 52 / double0101 : ℚ)| ≤ 2 ^ 1023 :=
    le_big16 (by unfold double0101; norm_num [abs_of_pos])
  have hn := abs_le.mp (hr.near _ _ hbig (by simpa using isDouble_small 10 (by norm_num)))
  have e : |(10 : ℚ) - 4548635623644201 / 2 ^ 52 / double0101| < 1 / 2 ^ 50 := by
    unfold double0101
    rw [abs_lt]
    norm_num
  have hq : (10 : ℚ) - 1 / 2 ^ 50 < 4548635623644201 / 2 ^ 52 / double0101 := by linarith [(abs_lt.mp e).2]
  have hq' : (4548635623644201 / 2 ^ 52 / double0101 : ℚ) ≤ 10 := by unfold double0101; norm_num
  have hle : rnd (4548635623644201 / 2 ^ 52 / double0101) ≤ 10 := by
    have := hr.rnd_le hbig (isDouble_small 10 (by norm_num)) (by exact_mod_cast hq')
    exact_mod_cast this
  have hge : (10 : ℚ) - 1 / 2 ^ 49 < rnd (4548635623644201 / 2 ^ 52 / double0101) := by linarith [hn.1]
  obtain ⟨j, hj⟩ := (hr.isDouble _ hbig).spacing (t := 3) (lt_trans (by norm_num) hge)
  have e2 : (2 : ℚ) ^ ((3 : ℤ) - 52) = 1 / 2 ^ 49 := by norm_num
  rw [hc, hj]
  rw [hj, e2] at hle hge
  rw [e2]
  have j1 : (j : ℚ) ≤ 5629499534213120 := by
    norm_num at hle
    linarith
  have j2 : (5629499534213119 : ℚ) < j := by
    norm_num at hge
    linarith
  have j1' : j ≤ 5629499534213120 := by exact_mod_cast j1
  have j2' : 5629499534213119 < j := by exact_mod_cast j2
  obtain rfl : j = 5629499534213120 := by omega
  unfold toSizeT
  norm_num
  rfl

/-- A function of one node, an operator that makes it constant, … -/
def oneNode : List (BDD .id) := [.var 0]
def toFalse : List (OpFun .id) := [fun _ => .ok [BDD.zero]]

/-- … and a metric with the value `e` for all functions but the original. -/
def constantMetric (g : Nat) (e b : ℚ) : MetricDim .id := ⟨g, fun f h => .ok (if f = h then 0 else e), b⟩

theorem constantMetric_rel (hr : Nearest rnd) {g : Nat} {e b e' : ℚ}
    (h : toSizeT (coordinateF rnd g e b) = toSizeT (g * e' / b)) :
    List.Forall₂ (DimRel rnd (fun _ _ => True) toFalse oneNode) [constantMetric g e b] [constantMetric g e' b] := by
  refine .cons ⟨rfl, Iff.rfl, fun f _ => ⟨fun _ => .inl ?_, trivial⟩⟩ .nil
  change toSizeT (coordinateF rnd g (if oneNode = f then 0 else e) b) =
    toSizeT (g * (if oneNode = f then 0 else e') / b)
  split
  · unfold coordinateF
    have h0 : rnd 0 = 0 := hr.exact isDouble_zero (by simp)
    rw [mul_zero, h0, zero_div, h0, mul_zero, zero_div]
  · exact h

/-- The bound is not kept: for every rounding to nearest there is a search whose result holds a function in a bucket
although its error is not below the bound. -/
theorem C109_error_bounds_false (hr : Nearest rnd) : ∃ r b,
    bucketGreedyMinimizeF rnd 8 oneNode [constantMetric 7 double0289 double0289] toFalse true = .ok r ∧
    b ∈ r ∧ b.isEmpty = false ∧ b.function = [BDD.zero] ∧ b.metricValues = [double0289] ∧
    ¬ double0289 < (constantMetric 7 double0289 double0289).bound := by
  have hrel := bucketGreedyMinimizeF_rel (constantMetric_rel hr (g := 7) (e := double0289) (b := double0289)
    (e' := double0289 * 6 / 7) (by rw [(C109_accepts hr).2]; decide +kernel)) trivial true 8
  have hrun : (bucketGreedyMinimize 8 oneNode [constantMetric 7 (double0289 * 6 / 7) double0289] toFalse true).toOption.map
      (fun r => (r[6]?).map (fun b => (b.isEmpty, b.function))) = some (some (false, [BDD.zero])) := by decide +kernel
  cases hex : bucketGreedyMinimize 8 oneNode [constantMetric 7 (double0289 * 6 / 7) double0289] toFalse true with
  | error e => rw [hex] at hrun; cases hrun
  | ok r' =>
    rw [hex] at hrun hrel
    cases hf : bucketGreedyMinimizeF rnd 8 oneNode [constantMetric 7 double0289 double0289] toFalse true with
    | error e => rw [hf] at hrel; exact hrel.elim
    | ok r =>
      rw [hf] at hrel
      have hrel : List.Forall₂ _ r r' := hrel
      simp only [Except.toOption, Option.map_some, Option.some.injEq, Option.map_eq_some_iff, Prod.mk.injEq] at hrun
      obtain ⟨b', hb', h1, h2⟩ := hrun
      obtain ⟨b, hb, hbb⟩ := getElem?_forall₂ (List.Forall₂.flip hrel) hb'
      have he : b.isEmpty = false := hbb.empty.symm.trans h1
      have hfn : b.function = [BDD.zero] := hbb.function.symm.trans h2
      refine ⟨r, b, rfl, List.mem_of_getElem? hb, he, hfn, ?_, lt_irrefl _⟩
      have := hbb.full he
      rw [hfn] at this
      obtain ⟨v, l, hv, hl, hvs⟩ := List.forall₂_cons_left_iff.mp this
      cases hl
      rw [hvs]
      have hv : (Except.ok (if oneNode = [BDD.zero] then 0 else double0289) : Except Fault ℚ) = .ok v := hv
      rw [if_neg (by decide +kernel)] at hv
      cases hv
      rfl

/-- Nor is every function below the bound taken: for every rounding to nearest there is a search that leaves all
buckets empty although its operator gives a smaller function with an error below the bound. -/
theorem C109_closed_false (hr : Nearest rnd) : ∃ r,
    bucketGreedyMinimizeF rnd 8 oneNode [constantMetric 10 before0101 double0101] toFalse true = .ok r ∧
    (∀ b ∈ r, b.isEmpty = true) ∧ nodeCount [BDD.zero (m := .id)] < nodeCount oneNode ∧
    (constantMetric 10 before0101 double0101).metric oneNode [BDD.zero] = .ok before0101 ∧
    before0101 < (constantMetric 10 before0101 double0101).bound := by
  have hrel := bucketGreedyMinimizeF_rel (constantMetric_rel hr (g := 10) (e := before0101) (b := double0101)
    (e' := double0101) (by rw [(C109_rejects hr).2.2.2]; decide +kernel)) trivial true 8
  have hrun : (bucketGreedyMinimize 8 oneNode [constantMetric 10 double0101 double0101] toFalse true).toOption.map
      (fun r => r.all (·.isEmpty)) = some true := by decide +kernel
  cases hex : bucketGreedyMinimize 8 oneNode [constantMetric 10 double0101 double0101] toFalse true with
  | error e => rw [hex] at hrun; cases hrun
  | ok r' =>
    rw [hex] at hrun hrel
    cases hf : bucketGreedyMinimizeF rnd 8 oneNode [constantMetric 10 before0101 double0101] toFalse true with
    | error e => rw [hf] at hrel; exact hrel.elim
    | ok r =>
      rw [hf] at hrel
      have hrel : List.Forall₂ _ r r' := hrel
      refine ⟨r, rfl, fun b hb => ?_, by decide +kernel, ?_, (C109_rejects hr).2.2.1⟩
      · obtain ⟨i, hi⟩ := List.mem_iff_getElem?.mp hb
        obtain ⟨b', hb', hbb⟩ := getElem?_forall₂ hrel hi
        simp only [Except.toOption, Option.map_some, Option.some.injEq, List.all_eq_true] at hrun
        exact hbb.empty.symm.trans (hrun b' (List.mem_of_getElem? hb'))
      · change (Except.ok (if oneNode = [BDD.zero] then 0 else before0101) : Except Fault ℚ) = _
        rw [if_neg (by decide +kernel)]

/-- A search that is not disturbed: an error of 3/8 on a grid of 4 cells up to 1/2, with the result of the exact one. -/
example : ∃ rnd, Nearest rnd ∧ (bucketGreedyMinimizeF rnd 5 oneNode [constantMetric 4 (3 / 8) (1 / 2)] toFalse true).toOption.map
    (·.map (fun b => (b.bddSize, b.isEmpty, b.metricValues))) =
      some [(2, true, [0]), (2, true, [0]), (2, true, [0]), (1, false, [3 / 8])] := by
  obtain ⟨rnd, hr⟩ := exists_nearest
  refine ⟨rnd, hr, ?_⟩
  rw [C109_same hr 5 oneNode [constantMetric 4 (3 / 8) (1 / 2)] toFalse true (by simp [constantMetric]) ?_]
  · decide +kernel
  · intro d hd g v _ hv
    rw [List.mem_singleton] at hd
    subst hd
    have hv : (Except.ok (if oneNode = g then 0 else 3 / 8) : Except Fault ℚ) = .ok v := hv
    rw [Except.ok.injEq] at hv
    have h3 : IsDouble (3 / 2) := by simpa using isDouble_nat_div 3 1 (by norm_num) (by norm_num)
    have h4 : IsDouble 3 := by simpa using isDouble_nat 3 (by norm_num)
    change IsDouble ((4 : Nat) * v) ∧ IsDouble ((4 : Nat) * v / (1 / 2)) ∧ |((4 : Nat) : ℚ) * v| ≤ _ ∧
      |((4 : Nat) : ℚ) * v / (1 / 2)| ≤ _
    split at hv <;> subst hv
    · refine ⟨by simpa using isDouble_zero, by simpa using isDouble_zero, ?_, ?_⟩ <;> exact le_big16 (by norm_num)
    · refine ⟨?_, ?_, ?_, ?_⟩
      · norm_num; exact h3
      · norm_num; exact h4
      · exact le_big16 (by norm_num [abs_of_pos])
      · exact le_big16 (by norm_num [abs_of_pos])

end Verif

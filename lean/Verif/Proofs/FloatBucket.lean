import Verif.Model.FloatBucket
import Verif.Proofs.Bucket
import Verif.Proofs.Float

/-! # Lemmas on the search with buckets on `double`s -/

namespace Verif

variable {m : Mgr} {rnd : ℚ → ℚ}

/-! ## Rounding and order -/

theorem Nearest.rnd_le (h : Nearest rnd) {q d : ℚ} (hq : |q| ≤ 2 ^ 1023) (hd : IsDouble d) (hle : q ≤ d) :
    rnd q ≤ d := by
  have := h.near q d hq hd
  rw [abs_of_nonneg (by linarith : (0 : ℚ) ≤ d - q)] at this
  have := (abs_le.mp this).2
  linarith

theorem Nearest.le_rnd (h : Nearest rnd) {q d : ℚ} (hq : |q| ≤ 2 ^ 1023) (hd : IsDouble d) (hle : d ≤ q) :
    d ≤ rnd q := by
  have := h.near q d hq hd
  rw [abs_of_nonpos (by linarith : d - q ≤ (0 : ℚ))] at this
  have := (abs_le.mp this).1
  linarith

/-! ## Related outcomes -/

/-- Both fail in the same way or both have results in the relation. -/
def ExRel {α β : Type _} (R : α → β → Prop) : Except Fault α → Except Fault β → Prop
  | .ok a, .ok b => R a b
  | .error e, .error e' => e = e'
  | _, _ => False

theorem ExRel.bind {α β γ δ : Type _} {R : α → β → Prop} {S : γ → δ → Prop} {x : Except Fault α}
    {y : Except Fault β} {f : α → Except Fault γ} {g : β → Except Fault δ} (h : ExRel R x y)
    (hfg : ∀ a b, x = .ok a → y = .ok b → R a b → ExRel S (f a) (g b)) : ExRel S (x >>= f) (y >>= g) := by
  cases x <;> cases y
  · exact h
  · exact h.elim
  · exact h.elim
  · exact hfg _ _ rfl rfl h

theorem ExRel.same {α : Type _} (x : Except Fault α) : ExRel Eq x x := by cases x <;> rfl

theorem ExRel.ok {α β : Type _} {R : α → β → Prop} {x : Except Fault α} {y : Except Fault β} {a : α}
    (h : ExRel R x y) (hx : x = .ok a) : ∃ b, y = .ok b ∧ R a b := by
  subst hx
  cases y
  · exact h.elim
  · exact ⟨_, rfl, h⟩

theorem ExRel.eq {α : Type _} {x y : Except Fault α} (h : ExRel Eq x y) : x = y := by
  cases x <;> cases y
  · exact congrArg _ h
  · exact h.elim
  · exact h.elim
  · exact congrArg _ h

theorem ExRel.mono {α β : Type _} {R S : α → β → Prop} {x : Except Fault α} {y : Except Fault β}
    (h : ExRel R x y) (hRS : ∀ a b, R a b → S a b) : ExRel S x y := by
  cases x <;> cases y
  · exact h
  · exact h.elim
  · exact h.elim
  · exact hRS _ _ h

theorem ExRel.forall₂_vget {α β : Type _} {R : α → β → Prop} {l : List α} {l' : List β} (h : List.Forall₂ R l l')
    (i : Nat) : ExRel R (vget l i) (vget l' i) := by
  induction h generalizing i with
  | nil => rfl
  | cons hx _ ih =>
    cases i with
    | zero => exact hx
    | succ i => exact ih i

theorem forall₂_set {α β : Type _} {R : α → β → Prop} {l : List α} {l' : List β} (h : List.Forall₂ R l l')
    (i : Nat) {a : α} {b : β} (hab : R a b) : List.Forall₂ R (l.set i a) (l'.set i b) := by
  induction h generalizing i with
  | nil => exact .nil
  | cons hx hl ih =>
    cases i with
    | zero => exact .cons hab hl
    | succ i => exact .cons hx (ih i)

/-! ## The search on `double`s follows an exact search with other metrics -/

/-- The same coordinate, or both outside of the grid. -/
def SameCell (grid : Nat) (x y : Except Fault Nat) : Prop :=
  x = y ∨ ∃ k k', x = .ok k ∧ y = .ok k' ∧ grid ≤ k ∧ grid ≤ k'

/-- The metric `d` on `double`s has the coordinates of the exact metric `d'`. -/
structure DimRel (rnd : ℚ → ℚ) (V : ℚ → ℚ → Prop) (ops : List (OpFun m)) (f : List (BDD m)) (d d' : MetricDim m) :
    Prop where
  grid : d'.gridSize = d.gridSize
  bound : d'.bound = 0 ↔ d.bound = 0
  metric : ∀ g, Reach ops f g →
    ExRel (fun v v' => (d.bound ≠ 0 →
      SameCell d.gridSize (toSizeT (coordinateF rnd d.gridSize v d.bound)) (toSizeT (d'.gridSize * v' / d'.bound))) ∧ V v v')
      (d.metric f g) (d'.metric f g)

theorem DimRel.convert {V : ℚ → ℚ → Prop} {ops : List (OpFun m)} {f g : List (BDD m)} {d d' : MetricDim m}
    (h : DimRel rnd V ops f d d') (hg : Reach ops f g) :
    ExRel (fun v v' => (d.bound ≠ 0 →
      SameCell d.gridSize (toSizeT (coordinateF rnd d.gridSize v d.bound)) (toSizeT (d'.gridSize * v' / d'.bound))) ∧ V v v' ∧
      d.metric f g = .ok v) (convertible (d.metric f g)) (convertible (d'.metric f g)) := by
  have := h.metric g hg
  cases h1 : d.metric f g with
  | error e =>
    cases h2 : d'.metric f g with
    | error e' =>
      rw [h1, h2] at this
      have : e = e' := this
      subst this
      cases e <;> rfl
    | ok v' => rw [h1, h2] at this; exact this.elim
  | ok v =>
    cases h2 : d'.metric f g with
    | error e' => rw [h1, h2] at this; exact this.elim
    | ok v' =>
      rw [h1, h2] at this
      exact ⟨this.1, this.2, rfl⟩

/-- Buckets that differ in the values of the metrics only. -/
structure BRel (V : ℚ → ℚ → Prop) (ops : List (OpFun m)) (f : List (BDD m)) (ms : List (MetricDim m))
    (b b' : Bucket m) : Prop where
  function : b'.function = b.function
  size : b'.bddSize = b.bddSize
  possible : b'.possibleOps = b.possibleOps
  empty : b'.isEmpty = b.isEmpty
  reach : Reach ops f b.function
  vals : List.Forall₂ V b.metricValues b'.metricValues
  full : b.isEmpty = false → List.Forall₂ (fun d v => d.metric f b.function = .ok v) ms b.metricValues
  zero : b.isEmpty = true → b.metricValues = List.replicate ms.length 0

/-- Ends of the metric loop that differ in the values only. -/
def MRel (V : ℚ → ℚ → Prop) (f g : List (BDD m)) (ms : List (MetricDim m)) : MetricResult → MetricResult → Prop
  | .notBetter, .notBetter => True
  | .exceeded, .exceeded => True
  | .better i v, .better i' v' => i' = i ∧ List.Forall₂ V v v' ∧
      List.Forall₂ (fun d v => d.metric f g = .ok v) ms v
  | _, _ => False

/-- States of the search that differ in the values only. -/
structure SRel (V : ℚ → ℚ → Prop) (ops : List (OpFun m)) (f : List (BDD m)) (ms : List (MetricDim m))
    (s s' : SearchState m) : Prop where
  buckets : List.Forall₂ (BRel V ops f ms) s.buckets s'.buckets
  test : s'.test = s.test
  possible : s'.possible = s.possible
  replace : s'.replace = s.replace

section

variable {V : ℚ → ℚ → Prop} {ops : List (OpFun m)} {f : List (BDD m)} {ms ms' : List (MetricDim m)}

theorem metricLoopF_rel (grid : List Nat) {g : List (BDD m)} (hg : Reach ops f g) {bs bs' : List (Bucket m)}
    (hb : List.Forall₂ (BRel V ops f ms) bs bs') (nodes : Nat) {ds ds' : List (MetricDim m)}
    (hd : List.Forall₂ (DimRel rnd V ops f) ds ds') : ∀ {ds0 : List (MetricDim m)} {idx : List Nat} {vals vals' : List ℚ},
    ms = ds0 ++ ds → List.Forall₂ V vals vals' → List.Forall₂ (fun d v => d.metric f g = .ok v) ds0 vals →
    ExRel (MRel V f g ms) (metricLoopF rnd grid f g bs nodes ds idx vals) (metricLoop grid f g bs' nodes ds' idx vals') := by
  induction hd with
  | nil =>
    intro ds0 idx vals vals' hms hv hm
    unfold metricLoopF metricLoop
    rw [List.append_nil] at hms
    exact ⟨rfl, hv, hms ▸ hm⟩
  | @cons d d' ds ds' h hds ih =>
    intro ds0 idx vals vals' hms hv hm
    unfold metricLoopF metricLoop
    refine (h.convert hg).bind fun v v' _ _ ⟨h1, h2, h3⟩ => ?_
    by_cases hb0 : d.bound = 0
    · rw [if_pos hb0, if_pos (h.bound.mpr hb0)]
      rfl
    rw [if_neg hb0, if_neg (fun hh => hb0 (h.bound.mp hh))]
    rcases h1 hb0 with hcell | ⟨k, k', hk, hk', hle, hle'⟩
    swap
    · rw [hk, hk', h.grid]
      change ExRel _ (if d.gridSize ≤ k then _ else _) (if d.gridSize ≤ k' then _ else _)
      rw [if_pos hle, if_pos hle']
      trivial
    rw [hcell, h.grid]
    refine (ExRel.same _).bind fun k k' _ _ hk => ?_
    subst hk
    split
    · trivial
    rw [hds.length_eq]
    refine (ExRel.same _).bind fun p p' _ _ hp => ?_
    subst hp
    refine (ExRel.forall₂_vget hb p).bind fun b b' _ _ hbb => ?_
    rw [hbb.size]
    split
    · trivial
    · refine ih (ds0 := ds0 ++ [d]) (by rw [hms]; simp) ?_ ?_
      · exact List.rel_append hv (.cons h2 .nil)
      · exact List.rel_append hm (.cons h3 .nil)

theorem updateLoop_rel (grid newIdx : List Nat) {g : List (BDD m)} (hg : Reach ops f g) (nodes : Nat)
    {vals vals' : List ℚ} (hv : List.Forall₂ V vals vals')
    (hm : List.Forall₂ (fun d v => d.metric f g = .ok v) ms vals) (opnum : Nat) (n : Nat) :
    ∀ (i : Nat) {s s' : SearchState m}, SRel V ops f ms s s' →
    ExRel (SRel V ops f ms) (updateLoop grid newIdx g nodes vals opnum n i s)
      (updateLoop grid newIdx g nodes vals' opnum n i s') := by
  induction n with
  | zero => intro i s s' hs; exact hs
  | succ n ih =>
    intro i s s' hs
    unfold updateLoop
    refine (ExRel.forall₂_vget hs.buckets i).bind fun b b' _ _ hbb => ?_
    rw [hbb.size]
    split
    · exact ih _ hs
    refine (ExRel.same _).bind fun k k' _ _ hk => ?_
    subst hk
    split
    · exact ih _ hs
    · refine ih _ ⟨?_, ?_, hs.possible, ?_⟩
      · exact forall₂_set hs.buckets i ⟨rfl, rfl, hbb.possible, rfl, hg, hv, fun _ => hm, fun hh => by cases hh⟩
      · rw [hs.test]
      · rw [hs.replace]

theorem replaceLoop_rel (possible : List Bool) (rs : List (Nat × Nat)) : ∀ {bs bs' : List (Bucket m)},
    List.Forall₂ (BRel V ops f ms) bs bs' →
    ExRel (List.Forall₂ (BRel V ops f ms)) (replaceLoop possible rs bs) (replaceLoop possible rs bs') := by
  induction rs with
  | nil => intro bs bs' h; exact h
  | cons p rs ih =>
    intro bs bs' h
    obtain ⟨i, op⟩ := p
    unfold replaceLoop
    refine (ExRel.forall₂_vget h i).bind fun b b' _ _ hbb => ?_
    refine (ExRel.same _).bind fun _ _ _ _ _ => ?_
    exact ih (forall₂_set h i ⟨hbb.function, hbb.size, rfl, hbb.empty, hbb.reach, hbb.vals, hbb.full, hbb.zero⟩)

theorem DimRel.grids (h : List.Forall₂ (DimRel rnd V ops f) ms ms') :
    ms'.map (·.gridSize) = ms.map (·.gridSize) := by
  induction h with
  | nil => rfl
  | cons hd _ ih => rw [List.map_cons, List.map_cons, hd.grid, ih]

theorem opStepF_rel (h : List.Forall₂ (DimRel rnd V ops f) ms ms') (populate : Bool) (current : Nat)
    {g : List (BDD m)} (hg : Reach ops f g) {op op' : OpFun m} (hop : op ∈ ops) (heq : op g = op' g) (opnum : Nat)
    {s s' : SearchState m} (hs : SRel V ops f ms s s') :
    ExRel (SRel V ops f ms) (opStepF rnd f ms populate current g op opnum s)
      (opStep f ms' populate current g op' opnum s') := by
  unfold opStepF opStep
  rw [DimRel.grids h, hs.possible, ← heq]
  refine (ExRel.same _).bind fun a a' _ _ ha => ?_
  subst ha
  split
  · refine (ExRel.same _).bind fun g' g'' hg' _ hgg => ?_
    subst hgg
    have hr : Reach ops f g' := .step hg hop hg'
    refine (ExRel.forall₂_vget hs.buckets current).bind fun b b' _ _ hbb => ?_
    rw [hbb.size]
    split
    · split
      · exact ⟨hs.buckets, hs.test, rfl, hs.replace⟩
      · exact hs
    · refine (metricLoopF_rel _ hr hs.buckets _ h (ds0 := []) rfl .nil .nil).bind fun r r' _ _ hrr => ?_
      cases r with
      | notBetter =>
        cases r' with
        | notBetter => exact hs
        | exceeded => exact hrr.elim
        | better i v => exact hrr.elim
      | exceeded =>
        cases r' with
        | notBetter => exact hrr.elim
        | exceeded => exact ⟨hs.buckets, hs.test, rfl, hs.replace⟩
        | better i v => exact hrr.elim
      | better i v =>
        cases r' with
        | notBetter => exact hrr.elim
        | exceeded => exact hrr.elim
        | better i' v' =>
          obtain ⟨h1, h2, h3⟩ := hrr
          subst h1
          refine (ExRel.same _).bind fun st st' _ _ hst => ?_
          subst hst
          rw [← hs.buckets.length_eq]
          exact updateLoop_rel _ _ hr _ h2 h3 _ _ _ hs
  · exact hs

theorem opLoopF_rel (h : List.Forall₂ (DimRel rnd V ops f) ms ms') (populate : Bool) (current : Nat)
    {g : List (BDD m)} (hg : Reach ops f g) {os os' : List (OpFun m)} (hos : List.Forall₂ (fun op op' => op g = op' g) os os') :
    ∀ (_ : ∀ op ∈ os, op ∈ ops) (opnum : Nat) {s s' : SearchState m}, SRel V ops f ms s s' →
    ExRel (SRel V ops f ms) (opLoopF rnd f ms populate current g os opnum s)
      (opLoop f ms' populate current g os' opnum s') := by
  induction hos with
  | nil => intro _ opnum s s' hs; exact hs
  | cons heq _ ih =>
    intro ho opnum s s' hs
    unfold opLoopF opLoop
    refine (opStepF_rel h populate current hg (ho _ List.mem_cons_self) heq opnum hs).bind fun t t' _ _ ht => ?_
    exact ih (fun op hop => ho op (List.mem_cons_of_mem _ hop)) _ ht

theorem searchLoopF_rel (h : List.Forall₂ (DimRel rnd V ops f) ms ms') {ops' : List (OpFun m)}
    (hops : List.Forall₂ (fun op op' => ∀ g, Reach ops f g → op g = op' g) ops ops') (populate : Bool) (fuel : Nat) :
    ∀ {bs bs' : List (Bucket m)} (test : List (List Nat)), List.Forall₂ (BRel V ops f ms) bs bs' →
    ExRel (List.Forall₂ (BRel V ops f ms)) (searchLoopF rnd f ms ops populate fuel bs test)
      (searchLoop f ms' ops' populate fuel bs' test) := by
  induction fuel with
  | zero =>
    intro bs bs' test hb
    cases test with
    | nil => simpa [searchLoopF, searchLoop, ExRel] using hb
    | cons w ws => simp [searchLoopF, searchLoop, ExRel]
  | succ fuel ih =>
    intro bs bs' test hb
    cases test with
    | nil => simpa [searchLoopF, searchLoop, ExRel] using hb
    | cons w ws =>
      unfold searchLoopF searchLoop
      dsimp only
      rw [DimRel.grids h]
      refine (ExRel.same _).bind fun c c' _ _ hc => ?_
      subst hc
      refine (ExRel.forall₂_vget hb c).bind fun b b' _ _ hbb => ?_
      rw [hbb.function, hbb.possible]
      refine (opLoopF_rel h populate c hbb.reach (hops.imp fun _ _ ho => ho _ hbb.reach) (fun _ hop => hop) 0
        (s := ⟨bs, (w :: ws).erase (minElement w ws), b.possibleOps, []⟩)
        (s' := ⟨bs', (w :: ws).erase (minElement w ws), b.possibleOps, []⟩) ⟨hb, rfl, rfl, rfl⟩).bind
        fun s s' _ _ hs => ?_
      rw [hs.possible, hs.replace]
      refine (replaceLoop_rel _ _ hs.buckets).bind fun r r' _ _ hr => ?_
      rw [hs.test]
      exact ih _ hr

/-- Also if the operators differ, as long as they do the same on all functions that are reached. -/
theorem bucketGreedyMinimizeF_rel' (h : List.Forall₂ (DimRel rnd V ops f) ms ms') (hV : V 0 0) {ops' : List (OpFun m)}
    (hops : List.Forall₂ (fun op op' => ∀ g, Reach ops f g → op g = op' g) ops ops') (populate : Bool) (fuel : Nat) :
    ExRel (List.Forall₂ (BRel V ops f ms)) (bucketGreedyMinimizeF rnd fuel f ms ops populate)
      (bucketGreedyMinimize fuel f ms' ops' populate) := by
  unfold bucketGreedyMinimizeF bucketGreedyMinimize
  rw [h.length_eq, hops.length_eq]
  split
  · rfl
  · dsimp only
    rw [DimRel.grids h]
    refine (ExRel.same _).bind fun c c' _ _ hc => ?_
    subst hc
    refine searchLoopF_rel h hops populate fuel _ ?_
    rw [List.forall₂_iff_get]
    refine ⟨by simp, fun i h1 h2 => ?_⟩
    simp only [List.get_eq_getElem, List.getElem_replicate]
    refine ⟨rfl, rfl, rfl, rfl, .refl, ?_, fun hh => by simp at hh, fun _ => by rw [h.length_eq]⟩
    rw [List.forall₂_iff_get]
    exact ⟨by simp, fun i h1 h2 => by simpa using hV⟩

theorem bucketGreedyMinimizeF_rel (h : List.Forall₂ (DimRel rnd V ops f) ms ms') (hV : V 0 0) (populate : Bool)
    (fuel : Nat) :
    ExRel (List.Forall₂ (BRel V ops f ms)) (bucketGreedyMinimizeF rnd fuel f ms ops populate)
      (bucketGreedyMinimize fuel f ms' ops populate) :=
  bucketGreedyMinimizeF_rel' h hV (List.forall₂_same.mpr fun _ _ _ _ => rfl) populate fuel

end

/-! ## Same coordinates, same search -/

theorem BRel.eq {ops : List (OpFun m)} {f : List (BDD m)} {ms : List (MetricDim m)} {b b' : Bucket m}
    (h : BRel Eq ops f ms b b') : b' = b := by
  obtain ⟨h1, h2, h3, h4, -, h5, -, -⟩ := h
  cases b; cases b'
  simp only at *
  rw [List.forall₂_eq_eq_eq] at h5
  subst h1 h2 h3 h4 h5
  rfl

/-! ## An exact metric with the coordinates of the one on `double`s -/

/-- `d` with the value moved to where the rounded coordinate says it is. -/
def shadow (rnd : ℚ → ℚ) (d : MetricDim m) : MetricDim m where
  gridSize := d.gridSize
  bound := d.bound
  metric f g := do
    let v ← d.metric f g
    .ok (coordinateF rnd d.gridSize v d.bound * d.bound / d.gridSize)

theorem shadow_rel (rnd : ℚ → ℚ) (ops : List (OpFun m)) (f : List (BDD m)) {ms : List (MetricDim m)}
    (hpos : ∀ d ∈ ms, d.gridSize ≠ 0) :
    List.Forall₂ (DimRel rnd (fun _ _ => True) ops f) ms (ms.map (shadow rnd)) := by
  rw [List.forall₂_map_right_iff, List.forall₂_same]
  intro d hd
  refine ⟨rfl, Iff.rfl, fun g _ => ?_⟩
  unfold shadow
  dsimp only
  cases d.metric f g with
  | error e => rfl
  | ok v =>
    refine ⟨fun hb => .inl ?_, trivial⟩
    have hg : (d.gridSize : ℚ) ≠ 0 := by exact_mod_cast hpos d hd
    rw [mul_div_cancel₀ _ hg, mul_div_cancel_right₀ _ hb]

/-- The spacing of `double`s of more than `2 ^ t`. -/
theorem IsDouble.spacing {y : ℚ} (hy : IsDouble y) {t : ℤ} (h : 2 ^ t < y) : ∃ j : ℤ, y = j * 2 ^ (t - 52) := by
  obtain ⟨k, e, h1, -, -, rfl⟩ := hy
  have he : t - 52 ≤ e := by
    have hk : (k : ℚ) ≤ 2 ^ (53 : ℤ) := by
      have := (le_abs_self k).trans h1
      exact_mod_cast this
    have : (2 : ℚ) ^ t < 2 ^ (53 + e) := by
      rw [zpow_add₀ (by norm_num)]
      exact h.trans_le (mul_le_mul_of_nonneg_right hk (zpow_nonneg (by norm_num) _))
    have := (zpow_lt_zpow_iff_right₀ (by norm_num : (1 : ℚ) < 2)).mp this
    omega
  obtain ⟨n, hn⟩ := Int.eq_ofNat_of_zero_le (by omega : 0 ≤ e - (t - 52))
  refine ⟨k * 2 ^ n, ?_⟩
  have : e = n + (t - 52) := by omega
  rw [this, zpow_add₀ (by norm_num), zpow_natCast]
  push_cast
  ring

/-! ## Coordinates -/

theorem pow_le_big {a b : Nat} (h : a ≤ b) : (2 : ℚ) ^ a ≤ 2 ^ b := pow_le_pow_right₀ (by norm_num) h

theorem isDouble_small (k : Nat) (h : k ≤ 2 ^ 53) : IsDouble (k : ℚ) :=
  ⟨k, 0, by rw [abs_of_nonneg (by positivity)]; exact_mod_cast h, by norm_num, by norm_num, by simp⟩

theorem Nearest.small (h : Nearest rnd) (k : Nat) (hk : k ≤ 2 ^ 53) : rnd (k : ℚ) = k := by
  refine h.exact (isDouble_small k hk) ?_
  rw [abs_of_nonneg (by positivity)]
  calc (k : ℚ) ≤ 2 ^ 53 := by exact_mod_cast hk
    _ ≤ 2 ^ 1023 := pow_le_big (by norm_num)

theorem toSizeT_ok {q : ℚ} {k : Nat} (h : toSizeT q = .ok k) : q < k + 1 ∧ (k ≠ 0 → (k : ℚ) ≤ q) := by
  unfold toSizeT at h
  split at h
  · cases h
  · rw [Except.ok.injEq] at h
    subst h
    by_cases hq : 0 ≤ ⌊q⌋
    · have e : ((⌊q⌋.toNat : Nat) : ℚ) = ((⌊q⌋ : ℤ) : ℚ) := by
        rw [← Int.cast_natCast, Int.toNat_of_nonneg hq]
      rw [e]
      exact ⟨Int.lt_floor_add_one q, fun _ => Int.floor_le q⟩
    · have : ⌊q⌋.toNat = 0 := Int.toNat_eq_zero.mpr (by omega)
      rw [this]
      refine ⟨?_, fun hh => absurd rfl hh⟩
      have h0 : q < 0 := by
        by_contra hc
        exact hq (Int.floor_nonneg.mpr (by linarith))
      push_cast
      linarith

/-- The two roundings in the normal range. -/
theorem coordinateF_normal (h : Nearest rnd) {g : Nat} {e b : ℚ} (hg : g ≤ 2 ^ 53) (he : |e| ≤ 2 ^ 900)
    (hb : 1 / 2 ^ 60 ≤ b) (hlow : 1 / 2 ^ 1022 ≤ g * e) (hq : 1 / 2 ^ 1021 ≤ g * e / b) :
    coordinateF rnd g e b ≤ g * e / b * (1 + 1 / 2 ^ 51) ∧ g * e / b ≤ coordinateF rnd g e b * (1 + 1 / 2 ^ 51) := by
  have hb0 : (0 : ℚ) < b := lt_of_lt_of_le (by norm_num) hb
  unfold coordinateF
  rw [h.small g hg]
  have hgq : (g : ℚ) ≤ 2 ^ 53 := by exact_mod_cast hg
  have hup : (g : ℚ) * e ≤ 2 ^ 953 := by
    calc (g : ℚ) * e ≤ 2 ^ 53 * 2 ^ 900 :=
          mul_le_mul hgq ((le_abs_self e).trans he) (by
            by_contra hc
            have : (g : ℚ) * e ≤ 0 := mul_nonpos_of_nonneg_of_nonpos (Nat.cast_nonneg g) (not_le.mp hc).le
            have h2 : (0 : ℚ) < 1 / 2 ^ 1022 := div_pos one_pos (pow_pos (by norm_num) _)
            exact absurd (h2.trans_le hlow) (not_lt.mpr this)) (pow_nonneg (by norm_num) _)
      _ = 2 ^ 953 := by rw [← pow_add]
  have r1 := abs_le.mp (h.rel hlow (hup.trans (pow_le_big (by norm_num))))
  have hp0 : 0 < (g : ℚ) * e := lt_of_lt_of_le (div_pos one_pos (pow_pos (by norm_num) _)) hlow
  set p := (g : ℚ) * e with hp
  set x := rnd p with hx
  have hxp : p * (1 - 1 / 2 ^ 53) ≤ x := by linarith only [r1.1]
  have hxp' : x ≤ p * (1 + 1 / 2 ^ 53) := by linarith only [r1.2]
  have hx0 : 0 < x := lt_of_lt_of_le (mul_pos hp0 (by norm_num)) hxp
  have hq1 : (1 : ℚ) / 2 ^ 1022 ≤ x / b := by
    have e1 : (1 : ℚ) / 2 ^ 1022 = 1 / 2 ^ 1021 * (1 / 2) := by
      rw [show (2 : ℚ) ^ 1022 = 2 ^ 1021 * 2 from pow_succ _ _, one_div_mul_one_div]
    rw [e1]
    calc (1 : ℚ) / 2 ^ 1021 * (1 / 2) ≤ p / b * (1 / 2) := mul_le_mul_of_nonneg_right hq (by norm_num)
      _ = p * (1 / 2) / b := by ring
      _ ≤ x / b := div_le_div_of_nonneg_right
        ((mul_le_mul_of_nonneg_left (by norm_num) hp0.le).trans hxp) hb0.le
  have hq2 : x / b ≤ 2 ^ 1022 := by
    rw [div_le_iff₀ hb0]
    have h7 : x ≤ 2 ^ 953 * (1 + 1 / 2 ^ 53) := hxp'.trans (mul_le_mul_of_nonneg_right hup (by norm_num))
    have h8 : (2 : ℚ) ^ 953 * (1 + 1 / 2 ^ 53) ≤ 2 ^ 954 := by
      rw [show (2 : ℚ) ^ 954 = 2 ^ 953 * 2 from pow_succ _ _]
      exact mul_le_mul_of_nonneg_left (by norm_num) (by positivity)
    have h9 : (2 : ℚ) ^ 954 ≤ 2 ^ 1022 * b := by
      calc (2 : ℚ) ^ 954 ≤ 2 ^ 962 := pow_le_big (by norm_num)
        _ = 2 ^ 1022 * (1 / 2 ^ 60) := by
          rw [show (2 : ℚ) ^ 1022 = 2 ^ 962 * 2 ^ 60 from by rw [← pow_add], mul_assoc, mul_one_div_cancel (by positivity),
            mul_one]
        _ ≤ 2 ^ 1022 * b := mul_le_mul_of_nonneg_left hb (pow_nonneg (by norm_num) _)
    exact (h7.trans h8).trans h9
  have r2 := abs_le.mp (h.rel hq1 hq2)
  set c := rnd (x / b) with hc
  have hcx : x / b * (1 - 1 / 2 ^ 53) ≤ c := by linarith [r2.1]
  have hcx' : c ≤ x / b * (1 + 1 / 2 ^ 53) := by linarith [r2.2]
  have e1 : x / b ≤ p / b * (1 + 1 / 2 ^ 53) := by
    rw [div_mul_eq_mul_div]
    exact div_le_div_of_nonneg_right hxp' hb0.le
  have e2 : p / b * (1 - 1 / 2 ^ 53) ≤ x / b := by
    rw [div_mul_eq_mul_div]
    exact div_le_div_of_nonneg_right hxp hb0.le
  have hpb : 0 < p / b := div_pos hp0 hb0
  constructor
  · calc c ≤ x / b * (1 + 1 / 2 ^ 53) := hcx'
      _ ≤ p / b * (1 + 1 / 2 ^ 53) * (1 + 1 / 2 ^ 53) := mul_le_mul_of_nonneg_right e1 (by norm_num)
      _ = p / b * ((1 + 1 / 2 ^ 53) * (1 + 1 / 2 ^ 53)) := by ring
      _ ≤ p / b * (1 + 1 / 2 ^ 51) := mul_le_mul_of_nonneg_left (by norm_num) hpb.le
  · calc p / b ≤ p / b * ((1 - 1 / 2 ^ 53) * (1 - 1 / 2 ^ 53) * (1 + 1 / 2 ^ 51)) := by
          nth_rewrite 1 [← mul_one (p / b)]
          exact mul_le_mul_of_nonneg_left (by norm_num) hpb.le
      _ = p / b * (1 - 1 / 2 ^ 53) * (1 - 1 / 2 ^ 53) * (1 + 1 / 2 ^ 51) := by ring
      _ ≤ x / b * (1 - 1 / 2 ^ 53) * (1 + 1 / 2 ^ 51) :=
        mul_le_mul_of_nonneg_right (mul_le_mul_of_nonneg_right e2 (by norm_num)) (by norm_num)
      _ ≤ c * (1 + 1 / 2 ^ 51) := mul_le_mul_of_nonneg_right hcx (by norm_num)

theorem coordinateF_rel (h : Nearest rnd) {g : Nat} {e b : ℚ} (hg : g ≤ 2 ^ 53) (he : |e| ≤ 2 ^ 900)
    (hb : 1 / 2 ^ 60 ≤ b) (hn : b / 2 ≤ g * e) :
    coordinateF rnd g e b ≤ g * e / b * (1 + 1 / 2 ^ 51) ∧ g * e / b ≤ coordinateF rnd g e b * (1 + 1 / 2 ^ 51) := by
  have hb0 : (0 : ℚ) < b := lt_of_lt_of_le (by norm_num) hb
  refine coordinateF_normal h hg he hb (le_trans ?_ hn) ?_
  · have : (1 : ℚ) / 2 ^ 1022 ≤ 1 / 2 ^ 61 :=
      one_div_le_one_div_of_le (pow_pos (by norm_num) _) (pow_le_big (by norm_num))
    have h2 : (1 : ℚ) / 2 ^ 61 = (1 / 2 ^ 60) / 2 := by norm_num
    exact (this.trans_eq h2).trans (div_le_div_of_nonneg_right hb (by norm_num))
  · rw [le_div_iff₀ hb0]
    have : (1 : ℚ) / 2 ^ 1021 ≤ 1 / 2 ^ 1 :=
      one_div_le_one_div_of_le (by norm_num) (pow_le_big (by norm_num))
    exact (mul_le_mul_of_nonneg_right this hb0.le).trans (by linarith only [hn])

theorem coordinateF_lt (hr : Nearest rnd) {g : Nat} {e b : ℚ} {k : Nat} (hg0 : 0 < g) (hg : g ≤ 2 ^ 53)
    (he : |e| ≤ 2 ^ 900) (hb : 1 / 2 ^ 60 ≤ b) (h : coordinateF rnd g e b < k + 1) :
    e < b * (k + 1) / g * (1 + 1 / 2 ^ 51) := by
  have hb0 : (0 : ℚ) < b := lt_of_lt_of_le (by norm_num) hb
  have hgq : (0 : ℚ) < g := by exact_mod_cast hg0
  by_cases hn : b / 2 ≤ g * e
  · obtain ⟨r1, r2⟩ := coordinateF_rel hr hg he hb hn
    have h3 : (g : ℚ) * e / b < (k + 1) * (1 + 1 / 2 ^ 51) :=
      lt_of_le_of_lt r2 (mul_lt_mul_of_pos_right h (by norm_num))
    rw [div_lt_iff₀ hb0] at h3
    rw [div_mul_eq_mul_div, lt_div_iff₀ hgq]
    linarith only [h3]
  · have hn' := not_le.mp hn
    have h4 : e < b / g := by
      rw [lt_div_iff₀ hgq]
      linarith only [hn', hb0]
    refine h4.trans_le ?_
    rw [div_mul_eq_mul_div]
    refine div_le_div_of_nonneg_right ?_ hgq.le
    have hk : (0 : ℚ) ≤ k := Nat.cast_nonneg k
    calc b = b * 1 * 1 := by ring
      _ ≤ b * (k + 1) * (1 + 1 / 2 ^ 51) :=
        mul_le_mul (mul_le_mul_of_nonneg_left (by linarith only [hk]) hb0.le) (by norm_num) (by norm_num)
          (mul_nonneg hb0.le (by linarith only [hk]))

theorem coordinateF_lt_exact (hr : Nearest rnd) {g : Nat} {e b : ℚ} {k : Nat} (hg0 : 0 < g) (hg : g ≤ 2 ^ 53)
    (hb : 1 / 2 ^ 60 ≤ b) (he : |e| ≤ 2 ^ 900) (hge : IsDouble (g * e)) (hk : k < 2 ^ 53)
    (h1 : coordinateF rnd g e b < k + 1) : e < b * (k + 1) / g := by
  have hb0 : (0 : ℚ) < b := lt_of_lt_of_le (by norm_num) hb
  have hgq : (0 : ℚ) < g := by exact_mod_cast hg0
  have habs : |(g : ℚ) * e| ≤ 2 ^ 953 := by
    rw [abs_mul, abs_of_pos hgq]
    calc (g : ℚ) * |e| ≤ 2 ^ 53 * 2 ^ 900 :=
          mul_le_mul (by exact_mod_cast hg) he (abs_nonneg e) (pow_nonneg (by norm_num) _)
      _ = 2 ^ 953 := by rw [← pow_add]
  unfold coordinateF at h1
  rw [hr.small g hg, hr.exact hge (habs.trans (pow_le_big (by norm_num)))] at h1
  have hq : |(g : ℚ) * e / b| ≤ 2 ^ 1023 := by
    rw [abs_div, abs_of_pos hb0, div_le_iff₀ hb0]
    calc |(g : ℚ) * e| ≤ 2 ^ 953 := habs
      _ ≤ 2 ^ 963 := pow_le_big (by norm_num)
      _ = 2 ^ 1023 * (1 / 2 ^ 60) := by
        rw [show (2 : ℚ) ^ 1023 = 2 ^ 963 * 2 ^ 60 from by rw [← pow_add], mul_assoc,
          mul_one_div_cancel (pow_pos (by norm_num) _).ne', mul_one]
      _ ≤ 2 ^ 1023 * b := mul_le_mul_of_nonneg_left hb (pow_nonneg (by norm_num) _)
  by_contra hc
  have hc' := not_lt.mp hc
  rw [div_le_iff₀ hgq] at hc'
  have hle : ((k + 1 : Nat) : ℚ) ≤ g * e / b := by
    rw [le_div_iff₀ hb0]
    push_cast
    linarith
  have := hr.le_rnd hq (isDouble_small (k + 1) (by omega)) hle
  push_cast at this
  linarith

/-! ## The order of the rounds -/

theorem indexSumF_exact (hr : Nearest rnd) (l : List Nat) (a : Nat) (h : a + l.sum ≤ 2 ^ 53) :
    indexSumF rnd l a = ((a + l.sum : Nat) : ℚ) := by
  induction l generalizing a with
  | nil => rfl
  | cons k ks ih =>
    rw [List.sum_cons] at h ⊢
    rw [indexSumF, hr.small k (by omega), ← Nat.cast_add, hr.small (a + k) (by omega), ih (a + k) (by omega), Nat.add_assoc]

theorem minElementF_eq (hr : Nearest rnd) (w : List Nat) (ws : List (List Nat)) (h : ∀ v ∈ w :: ws, v.sum ≤ 2 ^ 53) :
    minElementF rnd w ws = minElement w ws := by
  induction ws generalizing w with
  | nil => rfl
  | cons v vs ih =>
    have e : ∀ u ∈ w :: v :: vs, indexSumF rnd u 0 = (u.sum : ℚ) := fun u hu => by
      have := indexSumF_exact hr u 0 (by rw [Nat.zero_add]; exact h u hu)
      rwa [Nat.cast_zero, Nat.zero_add] at this
    unfold minElementF minElement
    rw [e v (by simp), e w (by simp), ih v (fun u hu => h u (by simp at hu ⊢; tauto)),
      ih w (fun u hu => h u (by simp at hu ⊢; tauto))]
    simp only [Nat.cast_lt]

theorem InBox.sum_le {idx bounds : List Nat} (h : InBox idx bounds) : idx.sum ≤ bounds.sum := by
  induction h with
  | nil => exact le_rfl
  | cons h _ ih => simp only [List.sum_cons]; omega

end Verif

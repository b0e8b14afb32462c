import Verif.Model.FloatAddBucket
import Verif.Proofs.FloatBucket

/-! # Lemmas on the search with metrics computed on ADDs -/

namespace Verif

variable {m : Mgr} {rnd : ℚ → ℚ} {I : CTab → Prop}

/-- The metric may give the value `v`: it does so with some table of constants that satisfies the invariant. -/
def MayGive (I : CTab → Prop) (d : MetricDimE m) (f g : List (BDD m)) (v : ℚ) : Prop :=
  ∃ c c', I c ∧ d.metric f g c = .ok (v, c')

/-- Calls of the metrics keep the invariant. -/
def KeepsTable (I : CTab → Prop) (ops : List (OpFun m)) (f : List (BDD m)) (ms : List (MetricDimE m)) : Prop :=
  ∀ d ∈ ms, ∀ g v c c', Reach ops f g → I c → d.metric f g c = .ok (v, c') → I c'

/-! ## The metric loop -/

/-- The metric loop went through: per metric an error it may give for `g`, its grid coordinate, and its range. -/
inductive MetOkE (rnd : ℚ → ℚ) (I : CTab → Prop) (f g : List (BDD m)) :
    List (MetricDimE m) → List Nat → List ℚ → Prop
  | nil : MetOkE rnd I f g [] [] []
  | cons {d : MetricDimE m} {ds k idx v vs} : MayGive I d f g v → d.bound ≠ 0 →
      toSizeT (coordinateF rnd d.gridSize v d.bound) = .ok k → k < d.gridSize → MetOkE rnd I f g ds idx vs →
      MetOkE rnd I f g (d :: ds) (k :: idx) (v :: vs)

theorem MetOkE.inBox {f g : List (BDD m)} {ds idx vs} (h : MetOkE rnd I f g ds idx vs) :
    InBox idx (ds.map (·.gridSize)) := by
  induction h with
  | nil => exact .nil
  | cons _ _ _ h _ ih => exact .cons h ih

theorem MetOkE.values_length {f g : List (BDD m)} {ds idx vs} (h : MetOkE rnd I f g ds idx vs) :
    vs.length = ds.length := by
  induction h with
  | nil => rfl
  | cons _ _ _ _ _ ih => simp [ih]

theorem MetOkE.get {f g : List (BDD m)} {ds idx vs} (h : MetOkE rnd I f g ds idx vs) {pos : List Nat}
    (hle : LeIdx idx pos) {k : Nat} {d : MetricDimE m} {i : Nat} {v : ℚ} (hd : ds[k]? = some d)
    (hi : pos[k]? = some i) (hv : vs[k]? = some v) :
    MayGive I d f g v ∧ coordinateF rnd d.gridSize v d.bound < i + 1 := by
  induction h generalizing pos k with
  | nil => simp at hd
  | cons h1 h2 h3 h4 h5 ih =>
    rename_i d' ds k' idx v' vs
    cases hle with
    | cons hle1 hle2 =>
      rename_i p pos
      cases k with
      | zero =>
        simp only [List.getElem?_cons_zero, Option.some.injEq] at hd hi hv
        subst hd hi hv
        have : (k' : ℚ) ≤ p := by exact_mod_cast hle1
        exact ⟨h1, (toSizeT_le h3).trans_le (by linarith)⟩
      | succ k =>
        rw [List.getElem?_cons_succ] at hd hi hv
        exact ih hle2 hd hi hv

theorem convertibleE_ok {r : Except Fault (ℚ × CTab)} {p : ℚ × CTab} (h : convertibleE r = .ok p) : r = .ok p := by
  revert h
  unfold convertibleE
  split
  · intro h; cases h
  · exact id

theorem metricLoopE_keeps {ops : List (OpFun m)} {grid : List Nat} {f g : List (BDD m)} {bs : List (Bucket m)}
    {nodes : Nat} {ms ds : List (MetricDimE m)} {idx vals c p} (hk : KeepsTable I ops f ms) (hsub : ∀ d ∈ ds, d ∈ ms)
    (hg : Reach ops f g) (hI : I c) (h : metricLoopE rnd grid f g bs nodes ds idx vals c = .ok p) : I p.2 := by
  induction ds generalizing idx vals c with
  | nil => unfold metricLoopE at h; cases h; exact hI
  | cons d ds ih =>
    unfold metricLoopE at h
    obtain ⟨e, he, h⟩ := bind_ok h
    have hI' : I e.2 := hk d (hsub d (by simp)) g e.1 c e.2 hg hI (convertibleE_ok he)
    split at h
    · cases h
    obtain ⟨k, hk, h⟩ := bind_ok h
    split at h
    · cases h; exact hI'
    obtain ⟨p, hp, h⟩ := bind_ok h
    obtain ⟨b, hb', h⟩ := bind_ok h
    split at h
    · cases h; exact hI'
    exact ih (fun d hd => hsub d (by simp [hd])) hI' h

theorem metricLoopE_better {ops : List (OpFun m)} {grid : List Nat} {f g : List (BDD m)} {bs : List (Bucket m)}
    {nodes : Nat} {ms ds : List (MetricDimE m)} {idx vals c c' J V} (hk : KeepsTable I ops f ms) (hsub : ∀ d ∈ ds, d ∈ ms)
    (hg : Reach ops f g) (hI : I c) (h : metricLoopE rnd grid f g bs nodes ds idx vals c = .ok (.better J V, c')) :
    ∃ J' V', J = idx ++ J' ∧ V = vals ++ V' ∧ MetOkE rnd I f g ds J' V' := by
  induction ds generalizing idx vals c with
  | nil =>
    unfold metricLoopE at h
    cases h
    exact ⟨[], [], by simp, by simp, .nil⟩
  | cons d ds ih =>
    unfold metricLoopE at h
    obtain ⟨e, he, h⟩ := bind_ok h
    have he' := convertibleE_ok he
    have hI' : I e.2 := hk d (hsub d (by simp)) g e.1 c e.2 hg hI he'
    split at h
    · cases h
    rename_i hb
    obtain ⟨k, hk, h⟩ := bind_ok h
    split at h
    · cases h
    rename_i hkg
    obtain ⟨p, hp, h⟩ := bind_ok h
    obtain ⟨b, hb', h⟩ := bind_ok h
    split at h
    · cases h
    obtain ⟨I', V', h1, h2, h3⟩ := ih (fun d hd => hsub d (by simp [hd])) hI' h
    exact ⟨k :: I', e.1 :: V', by simp [h1], by simp [h2], .cons ⟨c, e.2, hI, he'⟩ hb hk (by omega) h3⟩

theorem metricLoopE_ne_fuel {grid : List Nat} {f g : List (BDD m)} {bs : List (Bucket m)} {nodes : Nat}
    {ds : List (MetricDimE m)} {idx vals c} (hm : ∀ d ∈ ds, ∀ c, d.metric f g c ≠ .error .fuel) :
    metricLoopE rnd grid f g bs nodes ds idx vals c ≠ .error .fuel := by
  induction ds generalizing idx vals c with
  | nil => simp [metricLoopE]
  | cons d ds ih =>
    intro h
    unfold metricLoopE at h
    rcases bind_fuel h with h | ⟨e, -, h⟩
    · unfold convertibleE at h
      split at h
      · cases h
      · exact hm d (by simp) c h
    split at h
    · cases h
    rcases bind_fuel h with h | ⟨k, -, h⟩
    · exact toSizeT_ne_fuel _ h
    split at h
    · cases h
    rcases bind_fuel h with h | ⟨p, -, h⟩
    · exact reduceLoop_ne_fuel _ _ _ h
    rcases bind_fuel h with h | ⟨b, -, h⟩
    · exact vget_ne_fuel h
    split at h
    · cases h
    exact ih (fun d hd => hm d (by simp [hd])) h

theorem metricLoopE_total {ops : List (OpFun m)} {f g : List (BDD m)} {bs : List (Bucket m)} {nodes : Nat}
    {ms ds : List (MetricDimE m)} {done : List (MetricDimE m)} {idx vals c}
    (hms : ms = done ++ ds) (hidx : InBox idx (done.map (·.gridSize)))
    (hpos : ∀ d ∈ ms, d.gridSize ≠ 0) (hprod : (ms.map (·.gridSize)).prod < 2 ^ 64)
    (hlen : bs.length = (ms.map (·.gridSize)).prod) (hk : KeepsTable I ops f ms) (hg : Reach ops f g) (hI : I c)
    (hm : ∀ d ∈ ds, d.bound ≠ 0 ∧ ∀ c, I c → ∃ v c', d.metric f g c = .ok (v, c') ∧
      0 ≤ coordinateF rnd d.gridSize v d.bound ∧ coordinateF rnd d.gridSize v d.bound < 2 ^ 64) :
    ∃ r, metricLoopE rnd (ms.map (·.gridSize)) f g bs nodes ds idx vals c = .ok r := by
  induction ds generalizing idx vals done c with
  | nil => exact ⟨_, rfl⟩
  | cons d ds ih =>
    obtain ⟨hb, hv⟩ := hm d (by simp)
    obtain ⟨v, c', hv, h0, h1⟩ := hv c hI
    obtain ⟨k, hkk⟩ := toSizeT_total h0 h1
    unfold metricLoopE
    rw [show convertibleE (d.metric f g c) = .ok (v, c') by rw [hv]; rfl]
    show ∃ r, (if d.bound = 0 then _ else _) = _
    rw [if_neg hb, hkk]
    show ∃ r, (if d.gridSize ≤ k then _ else _) = _
    by_cases hkg : d.gridSize ≤ k
    · rw [if_pos hkg]; exact ⟨_, rfl⟩
    rw [if_neg hkg]
    have hbox1 : InBox (idx ++ [k]) ((done ++ [d]).map (·.gridSize)) := by
      rw [List.map_append]
      exact hidx.append (.cons (Nat.lt_of_not_le hkg) .nil)
    have hbox : InBox (idx ++ [k] ++ List.replicate ds.length 0) (ms.map (·.gridSize)) := by
      rw [hms, List.map_append, List.map_cons,
        show done.map (·.gridSize) ++ d.gridSize :: ds.map (·.gridSize) =
          (done ++ [d]).map (·.gridSize) ++ ds.map (·.gridSize) by simp]
      refine hbox1.append ?_
      have := forall₂_replicate_zero (ds.map (·.gridSize)) (by
        intro b hb
        obtain ⟨d', hd', rfl⟩ := List.mem_map.mp hb
        exact hpos d' (by simp [hms, hd']))
      rwa [List.length_map] at this
    rw [reduceIndex_eq hbox (le_of_lt hprod)]
    have hlt := rank_lt hbox
    rw [← hlen] at hlt
    show ∃ r, (vget bs _ >>= _) = _
    rw [vget_eq bs _ bs[rank (ms.map (·.gridSize)) (idx ++ [k] ++ List.replicate ds.length 0)] hlt]
    show ∃ r, (if _ ≤ nodes then _ else _) = _
    split
    · exact ⟨_, rfl⟩
    · exact ih (done := done ++ [d]) (by simp [hms]) hbox1
        (hk d (by simp [hms]) g v c c' hg hI hv) (fun d hd => hm d (by simp [hd]))

/-! ## The operator loop -/

theorem opStepE_keeps {ops : List (OpFun m)} {f : List (BDD m)} {ms : List (MetricDimE m)} {populate : Bool}
    {current : Nat} {bf : List (BDD m)} {op : OpFun m} {opnum : Nat} {s : SearchState m} {c p}
    (hk : KeepsTable I ops f ms) (hbf : Reach ops f bf) (hop : op ∈ ops) (hI : I c)
    (h : opStepE rnd f ms populate current bf op opnum s c = .ok p) : I p.2 := by
  unfold opStepE at h
  obtain ⟨flag, -, h⟩ := bind_ok h
  split at h
  · obtain ⟨g, hg, h⟩ := bind_ok h
    obtain ⟨cur, -, h⟩ := bind_ok h
    split at h
    · cases h; exact hI
    · obtain ⟨r, hr, h⟩ := bind_ok h
      have hI' := metricLoopE_keeps hk (fun _ h => h) (.step hbf hop hg) hI hr
      obtain ⟨r, c'⟩ := r
      cases r with
      | notBetter => cases h; exact hI'
      | exceeded => cases h; exact hI'
      | better idx vals =>
        obtain ⟨start, hs, h⟩ := bind_ok h
        obtain ⟨s', hs', h⟩ := bind_ok h
        cases h
        exact hI'
  · cases h; exact hI

theorem opStepE_cases {ops : List (OpFun m)} {f : List (BDD m)} {ms : List (MetricDimE m)} {populate : Bool}
    {current : Nat} {bf : List (BDD m)} {op : OpFun m} {opnum : Nat} {s : SearchState m} {c p}
    (hk : KeepsTable I ops f ms) (hbf : Reach ops f bf) (hop : op ∈ ops) (hI : I c)
    (h : opStepE rnd f ms populate current bf op opnum s c = .ok p) :
    (p.1.buckets = s.buckets ∧ p.1.test = s.test ∧ p.1.replace = s.replace ∧
      p.1.possible.length = s.possible.length) ∨
    ∃ g idx vals start, op bf = .ok g ∧ MetOkE rnd I f g ms idx vals ∧
      reduceIndex idx (ms.map (·.gridSize)) = .ok start ∧
      updateLoop (ms.map (·.gridSize)) idx g (nodeCount g) vals opnum
        (if populate then s.buckets.length - start else 1) start s = .ok p.1 := by
  unfold opStepE at h
  obtain ⟨flag, -, h⟩ := bind_ok h
  split at h
  · obtain ⟨g, hg, h⟩ := bind_ok h
    obtain ⟨cur, -, h⟩ := bind_ok h
    split at h
    · cases h
      left
      dsimp only
      split
      · exact ⟨rfl, rfl, rfl, by simp⟩
      · exact ⟨rfl, rfl, rfl, rfl⟩
    · obtain ⟨⟨r, c'⟩, hr, h⟩ := bind_ok h
      cases r with
      | notBetter => cases h; exact .inl ⟨rfl, rfl, rfl, rfl⟩
      | exceeded => cases h; exact .inl ⟨rfl, rfl, rfl, by simp⟩
      | better idx vals =>
        obtain ⟨start, hs, h⟩ := bind_ok h
        obtain ⟨s', hs', h⟩ := bind_ok h
        cases h
        obtain ⟨J, V, h1, h2, h3⟩ := metricLoopE_better hk (fun _ h => h) (.step hbf hop hg) hI hr
        rw [List.nil_append] at h1 h2
        subst h1 h2
        exact .inr ⟨g, idx, vals, start, hg, h3, hs, hs'⟩
  · cases h; exact .inl ⟨rfl, rfl, rfl, rfl⟩

theorem opStepE_ne_fuel {f : List (BDD m)} {ms : List (MetricDimE m)} {populate : Bool} {current : Nat}
    {bf : List (BDD m)} {op : OpFun m} {opnum : Nat} {s : SearchState m} {c}
    (hop : op bf ≠ .error .fuel) (hm : ∀ d ∈ ms, ∀ g c, d.metric f g c ≠ .error .fuel) :
    opStepE rnd f ms populate current bf op opnum s c ≠ .error .fuel := by
  intro h
  unfold opStepE at h
  rcases bind_fuel h with h | ⟨flag, -, h⟩
  · exact vget_ne_fuel h
  split at h
  · rcases bind_fuel h with h | ⟨g, -, h⟩
    · exact hop h
    rcases bind_fuel h with h | ⟨cur, -, h⟩
    · exact vget_ne_fuel h
    split at h
    · cases h
    · rcases bind_fuel h with h | ⟨⟨r, c'⟩, -, h⟩
      · exact metricLoopE_ne_fuel (fun d hd => hm d hd g) h
      cases r with
      | notBetter => cases h
      | exceeded => cases h
      | better idx vals =>
        rcases bind_fuel h with h | ⟨start, -, h⟩
        · exact reduceLoop_ne_fuel _ _ _ h
        rcases bind_fuel h with h | ⟨s', -, h⟩
        · exact updateLoop_ne_fuel h
        · cases h
  · cases h

theorem opLoopE_keeps {ops ops' : List (OpFun m)} {f : List (BDD m)} {ms : List (MetricDimE m)} {populate : Bool}
    {current : Nat} {bf : List (BDD m)} {opnum : Nat} {s : SearchState m} {c p}
    (hk : KeepsTable I ops f ms) (hbf : Reach ops f bf) (hops : ∀ op ∈ ops', op ∈ ops) (hI : I c)
    (h : opLoopE rnd f ms populate current bf ops' opnum s c = .ok p) : I p.2 := by
  induction ops' generalizing opnum s c with
  | nil => unfold opLoopE at h; cases h; exact hI
  | cons op ops' ih =>
    unfold opLoopE at h
    obtain ⟨p1, h1, h⟩ := bind_ok h
    exact ih (fun o ho => hops o (by simp [ho])) (opStepE_keeps hk hbf (hops op (by simp)) hI h1) h

theorem opStepE_work {f : List (BDD m)} {ms : List (MetricDimE m)} {populate : Bool}
    {current : Nat} {bf : List (BDD m)} {op : OpFun m} {opnum : Nat} {s : SearchState m} {c p}
    (h : opStepE rnd f ms populate current bf op opnum s c = .ok p) :
    work p.1.buckets p.1.test ≤ work s.buckets s.test := by
  unfold opStepE at h
  obtain ⟨flag, -, h⟩ := bind_ok h
  split at h
  · obtain ⟨g, hg, h⟩ := bind_ok h
    obtain ⟨cur, -, h⟩ := bind_ok h
    split at h
    · cases h
      dsimp only
      split <;> exact le_rfl
    · obtain ⟨⟨r, c'⟩, hr, h⟩ := bind_ok h
      cases r with
      | notBetter => cases h; exact le_rfl
      | exceeded => cases h; exact le_rfl
      | better idx vals =>
        obtain ⟨start, hs, h⟩ := bind_ok h
        obtain ⟨s', hs', h⟩ := bind_ok h
        cases h
        exact updateLoop_work hs'
  · cases h; exact le_rfl

theorem opLoopE_work {ops : List (OpFun m)} {f : List (BDD m)} {ms : List (MetricDimE m)} {populate : Bool}
    {current : Nat} {bf : List (BDD m)} {opnum : Nat} {s : SearchState m} {c p}
    (h : opLoopE rnd f ms populate current bf ops opnum s c = .ok p) :
    work p.1.buckets p.1.test ≤ work s.buckets s.test := by
  induction ops generalizing opnum s c with
  | nil => unfold opLoopE at h; cases h; exact le_rfl
  | cons op ops ih =>
    unfold opLoopE at h
    obtain ⟨p1, h1, h⟩ := bind_ok h
    exact le_trans (ih h) (opStepE_work h1)

theorem opLoopE_ne_fuel {f : List (BDD m)} {ms : List (MetricDimE m)} {populate : Bool} {current : Nat}
    {bf : List (BDD m)} {ops : List (OpFun m)} {opnum : Nat} {s : SearchState m} {c}
    (hop : ∀ op ∈ ops, op bf ≠ .error .fuel) (hm : ∀ d ∈ ms, ∀ g c, d.metric f g c ≠ .error .fuel) :
    opLoopE rnd f ms populate current bf ops opnum s c ≠ .error .fuel := by
  induction ops generalizing opnum s c with
  | nil => simp [opLoopE]
  | cons op ops ih =>
    intro h
    unfold opLoopE at h
    rcases bind_fuel h with h | ⟨s1, -, h⟩
    · exact opStepE_ne_fuel (hop op (by simp)) hm h
    · exact ih (fun op h => hop op (by simp [h])) h

/-! ## The invariant of the search -/

/-- What holds of the bucket at position `i`. -/
structure GoodBucketE (rnd : ℚ → ℚ) (I : CTab → Prop) (f : List (BDD m)) (ms : List (MetricDimE m))
    (ops : List (OpFun m)) (i : Nat) (b : Bucket m) : Prop where
  size : b.bddSize = nodeCount b.function
  le : b.bddSize ≤ nodeCount f
  reach : Reach ops f b.function
  empty : b.isEmpty = true → b.function = f
  full : b.isEmpty = false → b.bddSize < nodeCount f ∧
    ∃ idx, MetOkE rnd I f b.function ms idx b.metricValues ∧ LeIdx idx (unrank (ms.map (·.gridSize)) i)

theorem GoodBucketE.same {f : List (BDD m)} {ms : List (MetricDimE m)} {ops : List (OpFun m)} {i : Nat}
    {b c : Bucket m} (h : GoodBucketE rnd I f ms ops i b) (hs : SameBut c b) : GoodBucketE rnd I f ms ops i c := by
  obtain ⟨h1, h2, h3, h4⟩ := hs
  exact ⟨by rw [h1, h2]; exact h.size, by rw [h2]; exact h.le, by rw [h1]; exact h.reach,
    by rw [h1, h4]; exact h.empty, by rw [h1, h2, h3, h4]; exact h.full⟩

/-- The invariant. -/
structure SearchInvE (rnd : ℚ → ℚ) (I : CTab → Prop) (f : List (BDD m)) (ms : List (MetricDimE m))
    (ops : List (OpFun m)) (populate : Bool) (bs : List (Bucket m)) : Prop where
  len : bs.length = (ms.map (·.gridSize)).prod
  good : ∀ i b, bs[i]? = some b → GoodBucketE rnd I f ms ops i b
  front : populate = true → ∀ i j b c, bs[i]? = some b → bs[j]? = some c →
    LeIdx (unrank (ms.map (·.gridSize)) i) (unrank (ms.map (·.gridSize)) j) → c.bddSize ≤ b.bddSize

theorem opStepE_inv {f : List (BDD m)} {ms : List (MetricDimE m)} {ops : List (OpFun m)}
    {populate : Bool} {current : Nat} {bf : List (BDD m)} {op : OpFun m} {opnum : Nat}
    {s : SearchState m} {c p} (hpos : ∀ b ∈ ms.map (·.gridSize), b ≠ 0)
    (hprod : (ms.map (·.gridSize)).prod < 2 ^ 64) (hk : KeepsTable I ops f ms) (hI : I c)
    (hinv : SearchInvE rnd I f ms ops populate s.buckets)
    (hbf : Reach ops f bf) (hop : op ∈ ops)
    (h : opStepE rnd f ms populate current bf op opnum s c = .ok p) :
    SearchInvE rnd I f ms ops populate p.1.buckets := by
  rcases opStepE_cases hk hbf hop hI h with ⟨h1, -⟩ | ⟨g, idx, vals, start, hg, hmet, hstart, hup⟩
  · rw [h1]; exact hinv
  set grid := ms.map (·.gridSize) with hgrid
  have hbox : InBox idx grid := hmet.inBox
  have hchar := updateLoop_char hpos hup
  rw [reduceIndex_eq hbox (le_of_lt hprod)] at hstart
  cases hstart
  have hlen := (updateLoop_frame hup).1
  generalize hhi : rank grid idx + (if populate = true then s.buckets.length - rank grid idx else 1) = hi
    at hchar
  have hidxlen : ∀ i, (unrank grid i).length = idx.length := fun i => by
    rw [unrank_length]; exact (List.Forall₂.length_eq hbox).symm
  refine ⟨by rw [hlen, hinv.len], ?_, ?_⟩
  · intro i b hb
    rw [hchar i] at hb
    obtain ⟨b0, hb0, hb⟩ := Option.map_eq_some_iff.mp hb
    have h0 := hinv.good i b0 hb0
    split at hb
    · rename_i hh
      subst hb
      have hlt : nodeCount g < nodeCount f := lt_of_lt_of_le hh.2.2.1 h0.le
      exact ⟨rfl, le_of_lt hlt, .step hbf hop hg, (fun h => nomatch h), fun _ => ⟨hlt, idx, hmet,
        (belowSome_false_iff (hidxlen i)).mp hh.2.2.2⟩⟩
    · subst hb; exact h0
  · intro hpop i j b c hb hc hij
    rw [hchar i] at hb
    rw [hchar j] at hc
    obtain ⟨b0, hb0, hb⟩ := Option.map_eq_some_iff.mp hb
    obtain ⟨c0, hc0, hc⟩ := Option.map_eq_some_iff.mp hc
    have hmono := hinv.front hpop i j b0 c0 hb0 hc0 hij
    have hcle : c.bddSize ≤ c0.bddSize := by
      subst hc
      split
      · rename_i hh
        exact le_of_lt hh.2.2.1
      · exact le_rfl
    split at hb
    · rename_i hh
      have hJ : LeIdx idx (unrank grid j) :=
        ((belowSome_false_iff (hidxlen i)).mp hh.2.2.2).trans hij
      have hjlt := lt_of_getElem? hc0
      have hjs : rank grid idx ≤ j := by
        have := rank_mono (bs := grid) hJ
        rwa [rank_unrank (by rw [← hinv.len]; exact hjlt)] at this
      subst hb
      show c.bddSize ≤ nodeCount g
      by_cases hcs : c0.bddSize ≤ nodeCount g
      · omega
      · rw [if_pos] at hc
        · subst hc; exact le_rfl
        · refine ⟨hjs, ?_, by omega, (belowSome_false_iff (hidxlen j)).mpr hJ⟩
          rw [← hhi, if_pos hpop]
          omega
    · subst hb
      omega

theorem opLoopE_inv {f : List (BDD m)} {ms : List (MetricDimE m)} {ops ops' : List (OpFun m)}
    {populate : Bool} {current : Nat} {bf : List (BDD m)} {opnum : Nat}
    {s : SearchState m} {c p} (hpos : ∀ b ∈ ms.map (·.gridSize), b ≠ 0)
    (hprod : (ms.map (·.gridSize)).prod < 2 ^ 64) (hk : KeepsTable I ops f ms) (hI : I c)
    (hinv : SearchInvE rnd I f ms ops populate s.buckets)
    (hbf : Reach ops f bf) (hops : ∀ op ∈ ops', op ∈ ops)
    (h : opLoopE rnd f ms populate current bf ops' opnum s c = .ok p) :
    SearchInvE rnd I f ms ops populate p.1.buckets := by
  induction ops' generalizing opnum s c with
  | nil => unfold opLoopE at h; cases h; exact hinv
  | cons op ops' ih =>
    unfold opLoopE at h
    obtain ⟨p1, h1, h⟩ := bind_ok h
    have hop := hops op (by simp)
    exact ih (opStepE_keeps hk hbf hop hI h1) (opStepE_inv hpos hprod hk hI hinv hbf hop h1)
      (fun o ho => hops o (by simp [ho])) h

theorem SearchInvE.same {f : List (BDD m)} {ms : List (MetricDimE m)} {ops : List (OpFun m)}
    {populate : Bool} {bs bs' : List (Bucket m)} (h : SearchInvE rnd I f ms ops populate bs)
    (hs : List.Forall₂ SameBut bs' bs) : SearchInvE rnd I f ms ops populate bs' := by
  have key : ∀ (i : Nat) (b : Bucket m), bs'[i]? = some b → ∃ b0 : Bucket m, bs[i]? = some b0 ∧ SameBut b b0 := by
    intro i b hb
    have hi := lt_of_getElem? hb
    have hi' : i < bs.length := by rw [← hs.length_eq]; exact hi
    refine ⟨bs[i], List.getElem?_eq_getElem hi', ?_⟩
    rw [List.getElem?_eq_getElem hi, Option.some.injEq] at hb
    rw [← hb]
    exact (List.forall₂_iff_get.mp hs).2 i hi hi'
  refine ⟨by rw [hs.length_eq, h.len], fun i b hb => ?_, fun hp i j b c hb hc hij => ?_⟩
  · obtain ⟨b0, h0, hsb⟩ := key i b hb
    exact (h.good i b0 h0).same hsb
  · obtain ⟨b0, h0, hsb⟩ := key i b hb
    obtain ⟨c0, h0', hsc⟩ := key j c hc
    rw [hsb.2.1, hsc.2.1]
    exact h.front hp i j b0 c0 h0 h0' hij

theorem searchLoopE_inv {f : List (BDD m)} {ms : List (MetricDimE m)} {ops : List (OpFun m)}
    {populate : Bool} (hpos : ∀ b ∈ ms.map (·.gridSize), b ≠ 0)
    (hprod : (ms.map (·.gridSize)).prod < 2 ^ 64) (hk : KeepsTable I ops f ms) {fuel : Nat} {bs : List (Bucket m)}
    {test : List (List Nat)} {c p} (hI : I c) (hinv : SearchInvE rnd I f ms ops populate bs)
    (h : searchLoopE rnd f ms ops populate fuel bs test c = .ok p) :
    SearchInvE rnd I f ms ops populate p.1 ∧ I p.2 := by
  induction fuel generalizing bs test c with
  | zero =>
    cases test with
    | nil => unfold searchLoopE at h; cases h; exact ⟨hinv, hI⟩
    | cons w ws => unfold searchLoopE at h; cases h
  | succ fuel ih =>
    cases test with
    | nil => unfold searchLoopE at h; cases h; exact ⟨hinv, hI⟩
    | cons w ws =>
      unfold searchLoopE at h
      dsimp only at h
      obtain ⟨cu, hc, h⟩ := bind_ok h
      obtain ⟨b, hb, h⟩ := bind_ok h
      obtain ⟨s, hs, h⟩ := bind_ok h
      obtain ⟨bs', hbs', h⟩ := bind_ok h
      have hreach := (hinv.good _ _ (vget_ok_iff.mp hb)).reach
      exact ih (opLoopE_keeps hk hreach (fun _ h => h) hI hs)
        ((opLoopE_inv hpos hprod hk hI hinv hreach (fun _ h => h) hs).same (replaceLoop_same hbs')) h

/-! ## Termination -/

theorem searchLoopE_ne_fuel {f : List (BDD m)} {ms : List (MetricDimE m)} {ops : List (OpFun m)}
    {populate : Bool} (hop : ∀ op ∈ ops, ∀ g, op g ≠ .error .fuel)
    (hm : ∀ d ∈ ms, ∀ g c, d.metric f g c ≠ .error .fuel) {fuel : Nat} {bs : List (Bucket m)}
    {test : List (List Nat)} {c : CTab} (hw : work bs test ≤ fuel) :
    searchLoopE rnd f ms ops populate fuel bs test c ≠ .error .fuel := by
  induction fuel generalizing bs test c with
  | zero =>
    cases test with
    | nil => simp [searchLoopE]
    | cons w ws => simp [work] at hw
  | succ fuel ih =>
    cases test with
    | nil => simp [searchLoopE]
    | cons w ws =>
      intro h
      unfold searchLoopE at h
      dsimp only at h
      rcases bind_fuel h with h | ⟨cu, -, h⟩
      · exact reduceLoop_ne_fuel _ _ _ h
      rcases bind_fuel h with h | ⟨b, hb, h⟩
      · exact vget_ne_fuel h
      rcases bind_fuel h with h | ⟨s, hs, h⟩
      · exact opLoopE_ne_fuel (fun op ho => hop op ho _) hm h
      rcases bind_fuel h with h | ⟨bs', hbs', h⟩
      · exact replaceLoop_ne_fuel h
      refine ih ?_ h
      have h1 := opLoopE_work hs
      dsimp only at h1
      rw [sameBut_work (replaceLoop_same hbs')]
      have h2 := List.length_erase_of_mem (minElement_mem w ws)
      unfold work at h1 hw ⊢
      rw [h2] at h1
      simp only [List.length_cons] at hw h1
      omega

/-! ## Defined behaviour -/

/-- What a call needs from metrics and operators: they are defined on all functions met, and the
rounded coordinate is in range. -/
structure SearchPreE (rnd : ℚ → ℚ) (I : CTab → Prop) (f : List (BDD m)) (ms : List (MetricDimE m))
    (ops : List (OpFun m)) : Prop where
  opsOk : ∀ g, Reach ops f g → ∀ op ∈ ops, ∃ h, op g = .ok h
  metrics : ∀ g, Reach ops f g → ∀ d ∈ ms, d.bound ≠ 0 ∧ ∀ c, I c → ∃ v c', d.metric f g c = .ok (v, c') ∧
    0 ≤ coordinateF rnd d.gridSize v d.bound ∧ coordinateF rnd d.gridSize v d.bound < 2 ^ 64

/-- The part of the state that matters for defined behaviour. -/
structure StateOkE (ms : List (MetricDimE m)) (n : Nat) (s : SearchState m) : Prop where
  possible : s.possible.length = n
  poss : ∀ b ∈ s.buckets, b.possibleOps.length = n
  test : ∀ v ∈ s.test, InBox v (ms.map (·.gridSize))
  replace : ∀ p ∈ s.replace, p.1 < s.buckets.length ∧ p.2 < n

theorem opStepE_total {f : List (BDD m)} {ms : List (MetricDimE m)} {ops : List (OpFun m)}
    {populate : Bool} {current : Nat} {bf : List (BDD m)} {op : OpFun m} {opnum : Nat}
    {s : SearchState m} {c} (hpos : ∀ b ∈ ms.map (·.gridSize), b ≠ 0)
    (hprod : (ms.map (·.gridSize)).prod < 2 ^ 64) (hk : KeepsTable I ops f ms) (hI : I c)
    (hinv : SearchInvE rnd I f ms ops populate s.buckets)
    (hpre : SearchPreE rnd I f ms ops) (hbf : Reach ops f bf) (hop : op ∈ ops) (hopn : opnum < ops.length)
    (hcur : current < s.buckets.length) (hs : StateOkE ms ops.length s) :
    ∃ p, opStepE rnd f ms populate current bf op opnum s c = .ok p ∧ StateOkE ms ops.length p.1 ∧
      p.1.buckets.length = s.buckets.length := by
  have hex : ∃ p, opStepE rnd f ms populate current bf op opnum s c = .ok p := by
    unfold opStepE
    rw [vget_eq s.possible opnum true (by rw [hs.possible]; exact hopn)]
    show ∃ p, ite (_ = true) _ _ = _
    split
    · obtain ⟨g, hg⟩ := hpre.opsOk bf hbf op hop
      rw [hg]
      show ∃ p, (vget s.buckets current >>= _) = _
      rw [vget_eq s.buckets current s.buckets[current] hcur]
      show ∃ p, (if _ ≤ nodeCount g then _ else _) = _
      split
      · exact ⟨_, rfl⟩
      · obtain ⟨⟨r, c'⟩, hr⟩ := metricLoopE_total (f := f) (g := g) (bs := s.buckets) (nodes := nodeCount g)
          (ms := ms) (ds := ms) (done := []) (idx := []) (vals := []) rfl .nil
          (fun d hd => hpos _ (List.mem_map_of_mem hd)) hprod hinv.len hk (.step hbf hop hg) hI
          (fun d hd => hpre.metrics g (.step hbf hop hg) d hd)
        rw [hr]
        cases r with
        | notBetter => exact ⟨_, rfl⟩
        | exceeded => exact ⟨_, rfl⟩
        | better idx vals =>
          obtain ⟨J, V, h1, h2, h3⟩ := metricLoopE_better hk (fun _ h => h) (.step hbf hop hg) hI hr
          rw [List.nil_append] at h1 h2
          subst h1 h2
          show ∃ p, (reduceIndex _ _ >>= _) = _
          rw [reduceIndex_eq h3.inBox (le_of_lt hprod)]
          have hlt := rank_lt h3.inBox
          rw [← hinv.len] at hlt
          obtain ⟨s', hs'⟩ := updateLoop_total (grid := ms.map (·.gridSize)) (newIdx := idx) (modified := g)
            (nodes := nodeCount g) (vals := vals) (opnum := opnum)
            (n := if populate then s.buckets.length - rank (ms.map (·.gridSize)) idx else 1)
            (i := rank (ms.map (·.gridSize)) idx) (s := s) hpos (by split <;> omega)
          refine ⟨(s', c'), ?_⟩
          show (updateLoop _ _ _ _ _ _ _ _ _ >>= _) = _
          rw [hs']
          rfl
    · exact ⟨_, rfl⟩
  obtain ⟨p, h⟩ := hex
  refine ⟨p, h, ?_⟩
  rcases opStepE_cases hk hbf hop hI h with ⟨h1, h2, h3, h4⟩ | ⟨g, idx, vals, start, -, -, -, hup⟩
  · refine ⟨⟨by rw [h4, hs.possible], by rw [h1]; exact hs.poss, by rw [h2]; exact hs.test, ?_⟩,
      by rw [h1]⟩
    rw [h1, h3]
    exact hs.replace
  · obtain ⟨h1, h2, h3, h4⟩ := updateLoop_frame hup
    have hchar := updateLoop_char hpos hup
    refine ⟨⟨by rw [h2, hs.possible], ?_, ?_, ?_⟩, h1⟩
    · intro b hb
      obtain ⟨i, hi⟩ := List.mem_iff_getElem?.mp hb
      rw [hchar i] at hi
      obtain ⟨b0, hb0, hi⟩ := Option.map_eq_some_iff.mp hi
      have := hs.poss b0 (List.mem_of_getElem? hb0)
      subst hi
      by_cases hh : hits (ms.map (·.gridSize)) idx (nodeCount g) start
          (start + (if populate = true then s.buckets.length - start else 1)) i b0
      · rw [if_pos hh]; exact this
      · rw [if_neg hh]; exact this
    · intro v hv
      rcases h3 v hv with hv | ⟨k, -, hk⟩
      · exact hs.test v hv
      · rw [createIndex_eq hpos] at hk
        cases hk
        exact unrank_inBox hpos k
    · intro p hp
      rw [h1]
      rcases h4 p hp with hp | ⟨hp1, hp2⟩
      · exact hs.replace p hp
      · exact ⟨hp1, by omega⟩

theorem opLoopE_total {f : List (BDD m)} {ms : List (MetricDimE m)} {ops ops' : List (OpFun m)}
    {populate : Bool} {current : Nat} {bf : List (BDD m)} {opnum : Nat}
    {s : SearchState m} {c} (hpos : ∀ b ∈ ms.map (·.gridSize), b ≠ 0)
    (hprod : (ms.map (·.gridSize)).prod < 2 ^ 64) (hk : KeepsTable I ops f ms) (hI : I c)
    (hinv : SearchInvE rnd I f ms ops populate s.buckets)
    (hpre : SearchPreE rnd I f ms ops) (hbf : Reach ops f bf) (hops : ∀ op ∈ ops', op ∈ ops)
    (hopn : opnum + ops'.length = ops.length)
    (hcur : current < s.buckets.length) (hs : StateOkE ms ops.length s) :
    ∃ p, opLoopE rnd f ms populate current bf ops' opnum s c = .ok p ∧ StateOkE ms ops.length p.1 := by
  induction ops' generalizing opnum s c with
  | nil => exact ⟨(s, c), rfl, hs⟩
  | cons op ops' ih =>
    rw [List.length_cons] at hopn
    have hop := hops op (by simp)
    obtain ⟨p1, h1, hs1, hl1⟩ := opStepE_total (current := current) hpos hprod hk hI hinv hpre hbf hop
      (show opnum < ops.length by omega) hcur hs
    obtain ⟨p2, h2, hs2⟩ := ih (opnum := opnum + 1) (opStepE_keeps hk hbf hop hI h1)
      (opStepE_inv hpos hprod hk hI hinv hbf hop h1) (fun o ho => hops o (by simp [ho]))
      (by omega) (by omega) hs1
    refine ⟨p2, ?_, hs2⟩
    unfold opLoopE
    rw [h1]
    exact h2

theorem searchLoopE_total {f : List (BDD m)} {ms : List (MetricDimE m)} {ops : List (OpFun m)}
    {populate : Bool} (hpos : ∀ b ∈ ms.map (·.gridSize), b ≠ 0)
    (hprod : (ms.map (·.gridSize)).prod < 2 ^ 64) (hk : KeepsTable I ops f ms) (hpre : SearchPreE rnd I f ms ops)
    {fuel : Nat} {bs : List (Bucket m)} {test : List (List Nat)} {c} (hI : I c)
    (hinv : SearchInvE rnd I f ms ops populate bs)
    (hposs : ∀ b ∈ bs, b.possibleOps.length = ops.length)
    (htest : ∀ v ∈ test, InBox v (ms.map (·.gridSize))) (hw : work bs test ≤ fuel) :
    ∃ p, searchLoopE rnd f ms ops populate fuel bs test c = .ok p := by
  induction fuel generalizing bs test c with
  | zero =>
    cases test with
    | nil => exact ⟨(bs, c), rfl⟩
    | cons w ws => simp [work] at hw
  | succ fuel ih =>
    cases test with
    | nil => exact ⟨(bs, c), rfl⟩
    | cons w ws =>
      have hmem := minElement_mem w ws
      have hbox := htest _ hmem
      have hcur := rank_lt hbox
      rw [← hinv.len] at hcur
      have hb : bs[rank (ms.map (·.gridSize)) (minElement w ws)]? = some _ := List.getElem?_eq_getElem hcur
      have hreach := (hinv.good _ _ hb).reach
      obtain ⟨s, h1, hs⟩ := opLoopE_total (populate := populate) (s := ⟨bs, (w :: ws).erase (minElement w ws),
          bs[rank (ms.map (·.gridSize)) (minElement w ws)].possibleOps, []⟩) (opnum := 0)
        hpos hprod hk hI hinv hpre hreach (fun _ h => h) (by omega) hcur
        ⟨hposs _ (List.getElem_mem _), hposs, fun v hv => htest v (List.mem_of_mem_erase hv), by simp⟩
      have hinv' := opLoopE_inv hpos hprod hk hI hinv hreach (fun _ h => h) h1
      obtain ⟨bs', h2, hposs'⟩ := replaceLoop_total (possible := s.1.possible) (reps := s.1.replace)
        (bs := s.1.buckets) (by rw [hs.possible]; exact hs.replace) (by rw [hs.possible]; exact hs.poss)
      rw [hs.possible] at hposs'
      obtain ⟨r, hr⟩ := ih (opLoopE_keeps hk hreach (fun _ h => h) hI h1) (hinv'.same (replaceLoop_same h2))
        hposs' hs.test (by
        have h3 := opLoopE_work h1
        rw [sameBut_work (replaceLoop_same h2)]
        have h4 := List.length_erase_of_mem hmem
        unfold work at h3 hw ⊢
        rw [h4] at h3
        simp only [List.length_cons] at hw h3
        omega)
      refine ⟨r, ?_⟩
      unfold searchLoopE
      dsimp only
      rw [reduceIndex_eq hbox (le_of_lt hprod)]
      show (vget _ _ >>= _) = _
      rw [vget_ok_iff.mpr hb]
      show (opLoopE _ _ _ _ _ _ _ _ _ _ >>= _) = _
      rw [h1]
      show (replaceLoop _ _ _ >>= _) = _
      rw [h2]
      exact hr

/-! ## The whole function -/

theorem initial_invE {f : List (BDD m)} {ms : List (MetricDimE m)} {ops : List (OpFun m)}
    {populate : Bool} (hpos : ∀ b ∈ ms.map (·.gridSize), b ≠ 0)
    (hprod : (ms.map (·.gridSize)).prod < 2 ^ 64) :
    SearchInvE rnd I f ms ops populate (List.replicate (totalBuckets (ms.map (·.gridSize)))
      (⟨f, nodeCount f, List.replicate ms.length 0, List.replicate ops.length true, true⟩ : Bucket m)) := by
  have key : ∀ (n i : Nat) (b c : Bucket m), (List.replicate n c)[i]? = some b → b = c := by
    intro n i b c h
    exact List.eq_of_mem_replicate (List.mem_of_getElem? h)
  refine ⟨by rw [List.length_replicate, totalBuckets_eq hprod hpos], fun i b hb => ?_,
    fun _ i j b c hb hc _ => ?_⟩
  · rw [key _ _ _ _ hb]
    exact ⟨rfl, le_rfl, .refl, fun _ => rfl, fun h => nomatch h⟩
  · rw [key _ _ _ _ hb, key _ _ _ _ hc]

theorem bucketGreedyMinimizeE_inv {fuel : Nat} {f : List (BDD m)} {ms : List (MetricDimE m)}
    {ops : List (OpFun m)} {populate : Bool} {c p}
    (hprod : (ms.map (·.gridSize)).prod < 2 ^ 64) (hk : KeepsTable I ops f ms) (hI : I c)
    (h : bucketGreedyMinimizeE rnd fuel f ms ops populate c = .ok p) :
    SearchInvE rnd I f ms ops populate p.1 ∧ I p.2 ∧ ∀ b ∈ ms.map (·.gridSize), b ≠ 0 := by
  unfold bucketGreedyMinimizeE at h
  split at h
  · cases h
  · dsimp only at h
    obtain ⟨first, hf, h⟩ := bind_ok h
    have hpos := createIndex_ok_pos hf
    obtain ⟨h1, h2⟩ := searchLoopE_inv hpos hprod hk hI (initial_invE hpos hprod) h
    exact ⟨h1, h2, hpos⟩

/-! ## Metrics without a table -/

/-- A metric that makes no constants. -/
def liftDim (d : MetricDim m) : MetricDimE m :=
  ⟨d.gridSize, fun f g c => do let v ← d.metric f g; .ok (v, c), d.bound⟩

theorem liftDim_grid (ms : List (MetricDim m)) : (ms.map liftDim).map (·.gridSize) = ms.map (·.gridSize) := by
  rw [List.map_map]
  rfl

theorem metricLoopE_lift (grid : List Nat) (f g : List (BDD m)) (bs : List (Bucket m)) (nodes : Nat) (c : CTab)
    (ds : List (MetricDim m)) : ∀ (idx : List Nat) (vals : List ℚ),
    metricLoopE rnd grid f g bs nodes (ds.map liftDim) idx vals c =
      (metricLoopF rnd grid f g bs nodes ds idx vals).map (·, c) := by
  induction ds with
  | nil => intro idx vals; rfl
  | cons d ds ih =>
    intro idx vals
    rw [List.map_cons]
    unfold metricLoopE metricLoopF
    have e1 : convertibleE ((liftDim d).metric f g c) = (convertible (d.metric f g)).map (·, c) := by
      unfold liftDim
      dsimp only
      cases d.metric f g with
      | error e => cases e <;> rfl
      | ok v => rfl
    rw [e1]
    cases convertible (d.metric f g) with
    | error e => rfl
    | ok v =>
      show (if d.bound = 0 then _ else _) = Except.map _ (if d.bound = 0 then _ else _)
      split
      · rfl
      change (toSizeT (coordinateF rnd d.gridSize v d.bound) >>= _) =
        Except.map _ (toSizeT (coordinateF rnd d.gridSize v d.bound) >>= _)
      cases toSizeT (coordinateF rnd d.gridSize v d.bound) with
      | error e => rfl
      | ok k =>
        show (if d.gridSize ≤ k then _ else _) = Except.map _ (if d.gridSize ≤ k then _ else _)
        split
        · rfl
        rw [List.length_map]
        cases reduceIndex (idx ++ [k] ++ List.replicate ds.length 0) grid with
        | error e => rfl
        | ok p =>
          change (vget bs p >>= _) = Except.map _ (vget bs p >>= _)
          cases vget bs p with
          | error e => rfl
          | ok b =>
            show (if b.bddSize ≤ nodes then _ else _) = Except.map _ (if b.bddSize ≤ nodes then _ else _)
            split
            · rfl
            · exact ih _ _

theorem opStepE_lift (f : List (BDD m)) (ms : List (MetricDim m)) (populate : Bool) (current : Nat) (bf : List (BDD m))
    (op : OpFun m) (opnum : Nat) (s : SearchState m) (c : CTab) :
    opStepE rnd f (ms.map liftDim) populate current bf op opnum s c =
      (opStepF rnd f ms populate current bf op opnum s).map (·, c) := by
  unfold opStepE opStepF
  dsimp only
  cases vget s.possible opnum with
  | error e => rfl
  | ok flag =>
    show (if flag = true then _ else _) = Except.map _ (if flag = true then _ else _)
    split
    · cases op bf with
      | error e => rfl
      | ok g =>
        change (vget s.buckets current >>= _) = Except.map _ (vget s.buckets current >>= _)
        cases vget s.buckets current with
        | error e => rfl
        | ok cur =>
          show (if cur.bddSize ≤ nodeCount g then _ else _) = Except.map _ (if cur.bddSize ≤ nodeCount g then _ else _)
          split
          · rfl
          rw [metricLoopE_lift, liftDim_grid]
          cases metricLoopF rnd (ms.map (·.gridSize)) f g s.buckets (nodeCount g) ms [] [] with
          | error e => rfl
          | ok r =>
            cases r with
            | notBetter => rfl
            | exceeded => rfl
            | better idx vals =>
              change (reduceIndex idx (ms.map (·.gridSize)) >>= _) =
                Except.map _ (reduceIndex idx (ms.map (·.gridSize)) >>= _)
              cases reduceIndex idx (ms.map (·.gridSize)) with
              | error e => rfl
              | ok start =>
                change (updateLoop _ _ _ _ _ _ _ _ _ >>= _) = Except.map _ (updateLoop _ _ _ _ _ _ _ _ _)
                cases updateLoop (ms.map (·.gridSize)) idx g (nodeCount g) vals opnum
                  (if populate then s.buckets.length - start else 1) start s <;> rfl
    · rfl

theorem opLoopE_lift (f : List (BDD m)) (ms : List (MetricDim m)) (populate : Bool) (current : Nat) (bf : List (BDD m))
    (c : CTab) (ops : List (OpFun m)) : ∀ (opnum : Nat) (s : SearchState m),
    opLoopE rnd f (ms.map liftDim) populate current bf ops opnum s c =
      (opLoopF rnd f ms populate current bf ops opnum s).map (·, c) := by
  induction ops with
  | nil => intro opnum s; rfl
  | cons op ops ih =>
    intro opnum s
    unfold opLoopE opLoopF
    rw [opStepE_lift]
    cases opStepF rnd f ms populate current bf op opnum s with
    | error e => rfl
    | ok s' => exact ih _ _

theorem searchLoopE_lift (f : List (BDD m)) (ms : List (MetricDim m)) (ops : List (OpFun m)) (populate : Bool) (c : CTab)
    (fuel : Nat) : ∀ (bs : List (Bucket m)) (test : List (List Nat)),
    searchLoopE rnd f (ms.map liftDim) ops populate fuel bs test c =
      (searchLoopF rnd f ms ops populate fuel bs test).map (·, c) := by
  induction fuel with
  | zero => intro bs test; cases test <;> rfl
  | succ fuel ih =>
    intro bs test
    cases test with
    | nil => rfl
    | cons w ws =>
      unfold searchLoopE searchLoopF
      dsimp only
      rw [liftDim_grid]
      cases reduceIndex (minElement w ws) (ms.map (·.gridSize)) with
      | error e => rfl
      | ok cu =>
        change (vget bs cu >>= _) = Except.map _ (vget bs cu >>= _)
        cases vget bs cu with
        | error e => rfl
        | ok b =>
          change (opLoopE _ _ _ _ _ _ _ _ _ _ >>= _) = Except.map _ (opLoopF _ _ _ _ _ _ _ _ _ >>= _)
          rw [opLoopE_lift]
          cases opLoopF rnd f ms populate cu b.function ops 0
              ⟨bs, (w :: ws).erase (minElement w ws), b.possibleOps, []⟩ with
          | error e => rfl
          | ok s =>
            change (replaceLoop s.possible s.replace s.buckets >>= _) =
              Except.map _ (replaceLoop s.possible s.replace s.buckets >>= _)
            cases replaceLoop s.possible s.replace s.buckets with
            | error e => rfl
            | ok bs' => exact ih _ _

theorem bucketGreedyMinimizeE_lift (fuel : Nat) (f : List (BDD m)) (ms : List (MetricDim m)) (ops : List (OpFun m))
    (populate : Bool) (c : CTab) : bucketGreedyMinimizeE rnd fuel f (ms.map liftDim) ops populate c =
      (bucketGreedyMinimizeF rnd fuel f ms ops populate).map (·, c) := by
  unfold bucketGreedyMinimizeE bucketGreedyMinimizeF
  rw [List.length_map, liftDim_grid]
  split
  · rfl
  · dsimp only
    cases createIndex 0 (ms.map (·.gridSize)) with
    | error e => rfl
    | ok first => exact searchLoopE_lift f ms ops populate c fuel _ _

/-! ## The dimensions -/

theorem metricDimsE_eq (A : AddEnv) (dec cv : ℚ → ℚ) (ms : List SimpleMetricDim) : metricDimsE (m := m) A dec cv ms =
    ms.map fun d => ⟨d.gridSize, metricFunctionE A dec cv d.metric, d.bound⟩ := by
  induction ms with
  | nil => rfl
  | cons d ds ih => rw [metricDimsE, ih]; rfl

theorem metricDimsE_grid (A : AddEnv) (dec cv : ℚ → ℚ) (ms : List SimpleMetricDim) :
    (metricDimsE (m := m) A dec cv ms).map (·.gridSize) = ms.map (·.gridSize) := by
  rw [metricDimsE_eq, List.map_map]
  rfl

theorem metricDimsE_mem {A : AddEnv} {dec cv : ℚ → ℚ} {ms : List SimpleMetricDim} {d : MetricDimE m}
    (h : d ∈ metricDimsE A dec cv ms) : ∃ e ∈ ms, (⟨e.gridSize, metricFunctionE A dec cv e.metric, e.bound⟩ : MetricDimE m) = d := by
  rw [metricDimsE_eq] at h
  exact List.mem_map.mp h

end Verif

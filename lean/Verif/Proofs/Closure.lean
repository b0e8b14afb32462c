import Verif.Proofs.Trail

/-!
# Lemmas for C89: nothing is left to try at the end of the bucket search
-/

namespace Verif

variable {m : Mgr}

/-- Coordinate `i` is not above the one of the error of `g`. -/
def CoordLe (f g : List (BDD m)) (d : MetricDim m) (i : Nat) : Prop :=
  i < d.gridSize ∧ (i = 0 ∨ ∃ v, d.metric f g = .ok v ∧ d.bound * i / d.gridSize ≤ v)

/-- Some bucket with coordinates not above those of the errors of `g` is not larger than `g`. -/
def Covered (f : List (BDD m)) (ms : List (MetricDim m)) (bs : List (Bucket m)) (g : List (BDD m)) : Prop :=
  ∃ j c, List.Forall₂ (CoordLe f g) ms j ∧ bs[rank (ms.map (·.gridSize)) j]? = some c ∧
    c.bddSize ≤ nodeCount g

/-- Buckets only get smaller. -/
def Shrunk (bs bs' : List (Bucket m)) : Prop :=
  ∀ (i : Nat) (c : Bucket m), bs[i]? = some c → ∃ c' : Bucket m, bs'[i]? = some c' ∧ c'.bddSize ≤ c.bddSize

theorem Shrunk.refl (bs : List (Bucket m)) : Shrunk bs bs := fun _ c h => ⟨c, h, le_rfl⟩

theorem Shrunk.trans {a b c : List (Bucket m)} (h1 : Shrunk a b) (h2 : Shrunk b c) : Shrunk a c := by
  intro i x hx
  obtain ⟨y, hy, hle⟩ := h1 i x hx
  obtain ⟨z, hz, hle'⟩ := h2 i y hy
  exact ⟨z, hz, hle'.trans hle⟩

theorem Covered.mono {f : List (BDD m)} {ms : List (MetricDim m)} {bs bs' : List (Bucket m)}
    {g : List (BDD m)} (h : Covered f ms bs g) (hs : Shrunk bs bs') : Covered f ms bs' g := by
  obtain ⟨j, c, hj, hc, hle⟩ := h
  obtain ⟨c', hc', hle'⟩ := hs _ _ hc
  exact ⟨j, c', hj, hc', hle'.trans hle⟩

theorem forall₂_coordLe_inBox {f g : List (BDD m)} {ms : List (MetricDim m)} {j : List Nat}
    (h : List.Forall₂ (CoordLe f g) ms j) : InBox j (ms.map (·.gridSize)) := by
  induction h with
  | nil => exact .nil
  | cons h _ ih => exact .cons h.1 ih

theorem forall₂_coordLe_zero {f g : List (BDD m)} {ms : List (MetricDim m)}
    (hd : ∀ d ∈ ms, 0 < d.bound ∧ d.gridSize ≠ 0) :
    List.Forall₂ (CoordLe f g) ms (List.replicate ms.length 0) := by
  induction ms with
  | nil => exact .nil
  | cons d ms ih =>
    rw [List.length_cons, List.replicate_succ]
    exact .cons ⟨Nat.pos_of_ne_zero (hd d (by simp)).2, .inl rfl⟩ (ih fun d h => hd d (by simp [h]))

theorem toSizeT_ge {q : ℚ} {k : Nat} (h : toSizeT q = .ok k) : k = 0 ∨ (k : ℚ) ≤ q := by
  unfold toSizeT at h
  split at h
  · cases h
  · cases h
    by_cases h0 : ⌊q⌋ ≤ 0
    · exact .inl (Int.toNat_of_nonpos h0)
    · right
      have h1 : ((⌊q⌋.toNat : ℤ) : ℚ) = (⌊q⌋ : ℚ) := by rw [Int.toNat_of_nonneg (by omega)]
      have h2 : (⌊q⌋ : ℚ) ≤ q := Int.floor_le q
      rw [← h1] at h2
      exact_mod_cast h2

theorem coordLe_of_toSizeT {f g : List (BDD m)} {d : MetricDim m} {v : ℚ} {k : Nat} (hb : 0 < d.bound)
    (hv : d.metric f g = .ok v) (hk : toSizeT (d.gridSize * v / d.bound) = .ok k)
    (hlt : k < d.gridSize) : CoordLe f g d k := by
  refine ⟨hlt, ?_⟩
  rcases toSizeT_ge hk with h | h
  · exact .inl h
  · right
    refine ⟨v, hv, ?_⟩
    have hg : (0 : ℚ) < d.gridSize := by exact_mod_cast (show 0 < d.gridSize by omega)
    rw [le_div_iff₀ hb] at h
    rw [div_le_iff₀ hg]
    linarith

theorem MetOk.coordLe {f g : List (BDD m)} {ds idx vs} (hd : ∀ d ∈ ds, 0 < d.bound ∧ d.gridSize ≠ 0)
    (h : MetOk f g ds idx vs) : List.Forall₂ (CoordLe f g) ds idx := by
  induction h with
  | nil => exact .nil
  | cons h1 h2 h3 h4 h5 ih =>
    exact .cons (coordLe_of_toSizeT (hd _ (by simp)).1 h1 h3 h4) (ih fun d h => hd d (by simp [h]))

theorem forall₂_append' {α β : Type _} {R : α → β → Prop} {a c : List α} {b d : List β}
    (h1 : List.Forall₂ R a b) (h2 : List.Forall₂ R c d) : List.Forall₂ R (a ++ c) (b ++ d) := by
  induction h1 with
  | nil => exact h2
  | cons h _ ih => exact .cons h ih

theorem metricLoop_notBetter {f g : List (BDD m)} {ms : List (MetricDim m)} {bs : List (Bucket m)}
    (hprod : (ms.map (·.gridSize)).prod < 2 ^ 64) (hd : ∀ d ∈ ms, 0 < d.bound ∧ d.gridSize ≠ 0)
    {pre ds : List (MetricDim m)} (hms : ms = pre ++ ds) {idx : List Nat} {vals : List ℚ}
    (hidx : List.Forall₂ (CoordLe f g) pre idx)
    (h : metricLoop (ms.map (·.gridSize)) f g bs (nodeCount g) ds idx vals = .ok .notBetter) :
    Covered f ms bs g := by
  induction ds generalizing pre idx vals with
  | nil => simp [metricLoop] at h
  | cons d ds ih =>
    unfold metricLoop at h
    obtain ⟨v, hv, h⟩ := bind_ok h
    have hv := convertible_ok hv
    split at h
    · cases h
    obtain ⟨k, hk, h⟩ := bind_ok h
    have hb : 0 < d.bound := (hd d (by simp [hms])).1
    split at h
    · cases h
    rename_i hlt
    have hc := coordLe_of_toSizeT hb hv hk (by omega)
    have hidx' := forall₂_append' hidx (.cons hc .nil)
    obtain ⟨p, hp, h⟩ := bind_ok h
    obtain ⟨b, hb', h⟩ := bind_ok h
    split at h
    · rename_i hle
      have hall := forall₂_append' hidx'
        (forall₂_coordLe_zero (f := f) (g := g) (ms := ds) fun d hd' => hd d (by simp [hms, hd']))
      have hall : List.Forall₂ (CoordLe f g) ms (idx ++ [k] ++ List.replicate ds.length 0) := by
        rw [hms, show pre ++ d :: ds = pre ++ [d] ++ ds by simp]
        exact hall
      rw [reduceIndex_eq (forall₂_coordLe_inBox hall) (le_of_lt hprod)] at hp
      cases hp
      exact ⟨_, b, hall, vget_ok_iff.mp hb', hle⟩
    · exact ih (pre := pre ++ [d]) (by simp [hms]) hidx' h

/-- What one operator leaves behind: tried, and if it gave anything better that is in a bucket now. -/
def WasTried (f : List (BDD m)) (ms : List (MetricDim m)) (bs : List (Bucket m)) (bf : List (BDD m))
    (n : Nat) (op : OpFun m) : Prop :=
  ∃ g, op bf = .ok g ∧ (n ≤ nodeCount g ∨ overAny f ms g ∨ Covered f ms bs g)

theorem WasTried.mono {f : List (BDD m)} {ms : List (MetricDim m)} {bs bs' : List (Bucket m)}
    {bf : List (BDD m)} {n n' : Nat} {op : OpFun m} (h : WasTried f ms bs bf n op) (hs : Shrunk bs bs')
    (hn : n' ≤ n) : WasTried f ms bs' bf n' op := by
  obtain ⟨g, hg, h | h | h⟩ := h
  · exact ⟨g, hg, .inl (hn.trans h)⟩
  · exact ⟨g, hg, .inr (.inl h)⟩
  · exact ⟨g, hg, .inr (.inr (h.mono hs))⟩

theorem updateLoop_queue {grid newIdx : List Nat} (hpos : ∀ b ∈ grid, b ≠ 0) {modified : List (BDD m)}
    {nodes : Nat} {vals : List ℚ} {opnum n i : Nat} {s s' : SearchState m}
    (h : updateLoop grid newIdx modified nodes vals opnum n i s = .ok s') :
    (∀ v ∈ s.test, v ∈ s'.test) ∧
    ∀ k, (lastRep s'.replace k = lastRep s.replace k ∧ s'.buckets[k]? = s.buckets[k]?) ∨
      unrank grid k ∈ s'.test ∧ lastRep s'.replace k ≠ none := by
  induction n generalizing i s with
  | zero => unfold updateLoop at h; cases h; exact ⟨fun _ h => h, fun _ => .inl ⟨rfl, rfl⟩⟩
  | succ n ih =>
    unfold updateLoop at h
    obtain ⟨b, hb, h⟩ := bind_ok h
    split at h
    · exact ih h
    · rw [createIndex_eq hpos] at h
      obtain ⟨index, hi, h⟩ := bind_ok h
      cases hi
      split at h
      · exact ih h
      · obtain ⟨h1, h2⟩ := ih h
        dsimp only at h1 h2
        refine ⟨fun v hv => h1 v (mem_setInsert.mpr (.inr hv)), fun k => ?_⟩
        rcases h2 k with ⟨h2, h3⟩ | h2
        · rw [lastRep_append] at h2
          by_cases hk : i = k
          · subst hk
            rw [if_pos rfl] at h2
            exact .inr ⟨h1 _ (mem_setInsert.mpr (.inl rfl)), by rw [h2]; simp⟩
          · rw [if_neg hk] at h2
            rw [List.getElem?_set_ne hk] at h3
            exact .inl ⟨h2, h3⟩
        · exact .inr h2

theorem updateLoop_shrunk {grid newIdx : List Nat} {modified : List (BDD m)}
    {nodes : Nat} {vals : List ℚ} {opnum n i : Nat} {s s' : SearchState m}
    (h : updateLoop grid newIdx modified nodes vals opnum n i s = .ok s') :
    Shrunk s.buckets s'.buckets := by
  intro k c hc
  rcases updateLoop_trail h k with ⟨h1, -⟩ | ⟨b, h1, h2, h3, -⟩
  · exact ⟨c, by rw [h1, hc], le_rfl⟩
  · rw [hc] at h1
    cases h1
    exact ⟨_, h3, le_of_lt h2⟩

theorem belowSome_self (idx : List Nat) : belowSome idx idx = false := by
  unfold belowSome
  induction idx with
  | nil => rfl
  | cons a idx ih => simp

theorem opStep_closed {f : List (BDD m)} {ms : List (MetricDim m)} {populate : Bool} {current : Nat}
    {bf : List (BDD m)} {op : OpFun m} {opnum : Nat} {s s' : SearchState m}
    (hprod : (ms.map (·.gridSize)).prod < 2 ^ 64) (hd : ∀ d ∈ ms, 0 < d.bound ∧ d.gridSize ≠ 0)
    (hlen : s.buckets.length = (ms.map (·.gridSize)).prod)
    (h : opStep f ms populate current bf op opnum s = .ok s') :
    Shrunk s.buckets s'.buckets ∧ (∀ o, opnum < o → s'.possible[o]? = s.possible[o]?) ∧
    (∀ v ∈ s.test, v ∈ s'.test) ∧
    (∀ k, (lastRep s'.replace k = lastRep s.replace k ∧ s'.buckets[k]? = s.buckets[k]?) ∨
      unrank (ms.map (·.gridSize)) k ∈ s'.test ∧ lastRep s'.replace k ≠ none) ∧
    s'.buckets.length = s.buckets.length ∧
    (∀ v ∈ s'.test, v ∈ s.test ∨ InBox v (ms.map (·.gridSize))) ∧
    (s.possible[opnum]? = some true → ∃ c, s.buckets[current]? = some c ∧
      WasTried f ms s'.buckets bf c.bddSize op) := by
  have hpos : ∀ b ∈ ms.map (·.gridSize), b ≠ 0 := by
    intro b hb
    obtain ⟨d, hd', rfl⟩ := List.mem_map.mp hb
    exact (hd d hd').2
  have hset : ∀ o, opnum < o → (s.possible.set opnum false)[o]? = s.possible[o]? := fun o ho =>
    List.getElem?_set_ne (by omega)
  unfold opStep at h
  obtain ⟨flag, hflag, h⟩ := bind_ok h
  have hflag := vget_ok_iff.mp hflag
  split at h
  · rename_i hfl
    obtain ⟨g', hg, h⟩ := bind_ok h
    obtain ⟨cur, hcur, h⟩ := bind_ok h
    have hcur := vget_ok_iff.mp hcur
    split at h
    · rename_i hge
      cases h
      have : (if cur.bddSize * 3 / 2 < nodeCount g' then { s with possible := s.possible.set opnum false }
        else s).buckets = s.buckets := by split <;> rfl
      refine ⟨by rw [this]; exact .refl _, fun o ho => ?_, fun v hv => ?_, fun k => .inl ?_, by rw [this],
        fun v hv => .inl ?_, fun _ => ⟨cur, hcur, g', hg, .inl hge⟩⟩
      · split
        · exact hset o ho
        · rfl
      · split <;> exact hv
      · split <;> exact ⟨rfl, rfl⟩
      · revert hv; split <;> exact id
    · obtain ⟨r, hr, h⟩ := bind_ok h
      cases r with
      | notBetter =>
        cases h
        exact ⟨.refl _, fun _ _ => rfl, fun _ h => h, fun k => .inl ⟨rfl, rfl⟩, rfl, fun _ h => .inl h,
          fun _ => ⟨cur, hcur, g', hg, .inr (.inr (metricLoop_notBetter (pre := []) hprod hd rfl .nil hr))⟩⟩
      | exceeded =>
        cases h
        exact ⟨.refl _, hset, fun _ h => h, fun k => .inl ⟨rfl, rfl⟩, rfl, fun _ h => .inl h,
          fun _ => ⟨cur, hcur, g', hg, .inr (.inl (metricLoop_exceeded hd hr))⟩⟩
      | better idx vals =>
        obtain ⟨start, hs, h⟩ := bind_ok h
        obtain ⟨I, V, h1, h2, h3⟩ := metricLoop_better hr
        rw [List.nil_append] at h1 h2
        subst h1 h2
        rw [reduceIndex_eq h3.inBox (le_of_lt hprod)] at hs
        cases hs
        obtain ⟨q1, q2⟩ := updateLoop_queue hpos h
        obtain ⟨fr1, fr2, fr3, -⟩ := updateLoop_frame h
        refine ⟨updateLoop_shrunk h, fun o _ => by rw [fr2], q1, q2, fr1, fun v hv => ?_,
          fun _ => ⟨cur, hcur, g', hg, .inr (.inr ?_)⟩⟩
        · rcases fr3 v hv with hv | ⟨k, -, hk⟩
          · exact .inl hv
          · rw [createIndex_eq hpos] at hk
            cases hk
            exact .inr (unrank_inBox hpos k)
        · have hlt := rank_lt h3.inBox
          rw [← hlen] at hlt
          have hch := updateLoop_char hpos h (rank (ms.map (·.gridSize)) idx)
          rw [List.getElem?_eq_getElem hlt, Option.map_some] at hch
          refine ⟨idx, _, h3.coordLe hd, hch, ?_⟩
          generalize s.buckets[rank (ms.map (·.gridSize)) idx] = c
          by_cases hle : c.bddSize ≤ nodeCount g'
          · refine le_trans (le_of_eq ?_) hle
            rw [if_neg (fun hh => by have := hh.2.2.1; omega)]
          · rw [if_pos ⟨le_rfl, by split <;> omega, by omega,
              by rw [unrank_rank h3.inBox]; exact belowSome_self idx⟩]
            exact le_rfl
  · rename_i hfl
    cases h
    refine ⟨.refl _, fun _ _ => rfl, fun _ h => h, fun k => .inl ⟨rfl, rfl⟩, rfl, fun _ h => .inl h,
      fun ht => ?_⟩
    rw [ht] at hflag
    cases hflag
    exact absurd rfl hfl

/-- The operator loop on a bucket with flags `fl`. -/
theorem opLoop_closed {f : List (BDD m)} {ms : List (MetricDim m)} {populate : Bool} {current : Nat}
    {bf : List (BDD m)} {ops : List (OpFun m)} {n : Nat} {s s' : SearchState m}
    (hprod : (ms.map (·.gridSize)).prod < 2 ^ 64) (hd : ∀ d ∈ ms, 0 < d.bound ∧ d.gridSize ≠ 0)
    (hlen : s.buckets.length = (ms.map (·.gridSize)).prod)
    (h : opLoop f ms populate current bf ops n s = .ok s') :
    Shrunk s.buckets s'.buckets ∧ (∀ v ∈ s.test, v ∈ s'.test) ∧
    (∀ k, (lastRep s'.replace k = lastRep s.replace k ∧ s'.buckets[k]? = s.buckets[k]?) ∨
      unrank (ms.map (·.gridSize)) k ∈ s'.test ∧ lastRep s'.replace k ≠ none) ∧
    s'.buckets.length = s.buckets.length ∧
    (∀ v ∈ s'.test, v ∈ s.test ∨ InBox v (ms.map (·.gridSize))) ∧
    ∀ (o : Nat) (op : OpFun m), ops[o]? = some op → s.possible[n + o]? = some true → ∃ c, s'.buckets[current]? = some c ∧
      WasTried f ms s'.buckets bf c.bddSize op := by
  induction ops generalizing n s with
  | nil =>
    unfold opLoop at h
    cases h
    exact ⟨.refl _, fun _ h => h, fun k => .inl ⟨rfl, rfl⟩, rfl, fun _ h => .inl h, fun o op ho => by simp at ho⟩
  | cons op ops ih =>
    unfold opLoop at h
    obtain ⟨s1, h1, h⟩ := bind_ok h
    obtain ⟨a1, a2, a3, a4, a5, a6, a7⟩ := opStep_closed hprod hd hlen h1
    obtain ⟨b1, b3, b4, b5, b6, b7⟩ := ih (a5.trans hlen) h
    refine ⟨a1.trans b1, fun v hv => b3 v (a3 v hv), fun k => ?_, b5.trans a5, fun v hv => ?_,
      fun o op' ho hp => ?_⟩
    · rcases b4 k with ⟨h2, h3⟩ | h2
      · rcases a4 k with ⟨h4, h5⟩ | ⟨h4, h5⟩
        · exact .inl ⟨h2.trans h4, h3.trans h5⟩
        · exact .inr ⟨b3 _ h4, by rw [h2]; exact h5⟩
      · exact .inr h2
    · rcases b6 v hv with h2 | h2
      · exact a6 v h2
      · exact .inr h2
    · cases o with
      | zero =>
        cases ho
        obtain ⟨c, hc, ht⟩ := a7 hp
        obtain ⟨c', hc', hle⟩ := (a1.trans b1) _ _ hc
        exact ⟨c', hc', ht.mono b1 hle⟩
      | succ o =>
        refine b7 o op' ho ?_
        rw [show n + 1 + o = n + (o + 1) by omega, a2 _ (by omega)]
        exact hp

/-- A bucket with nothing left to try. -/
def ClosedAt (f : List (BDD m)) (ms : List (MetricDim m)) (ops : List (OpFun m)) (bs : List (Bucket m))
    (b : Bucket m) : Prop :=
  ∀ (o : Nat) (op : OpFun m), ops[o]? = some op → b.possibleOps[o]? = some true → WasTried f ms bs b.function b.bddSize op

theorem ClosedAt.mono {f : List (BDD m)} {ms : List (MetricDim m)} {ops : List (OpFun m)}
    {bs bs' : List (Bucket m)} {b : Bucket m} (h : ClosedAt f ms ops bs b) (hs : Shrunk bs bs') :
    ClosedAt f ms ops bs' b := fun o op h1 h2 => (h o op h1 h2).mono hs le_rfl

theorem replaceLoop_shrunk {possible : List Bool} {reps : List (Nat × Nat)} {bs bs' : List (Bucket m)}
    (h : replaceLoop possible reps bs = .ok bs') : Shrunk bs bs' := by
  intro i c hc
  refine ⟨_, by rw [replaceLoop_char h i, hc]; rfl, ?_⟩
  cases lastRep reps i <;> exact le_rfl

/-- What the work list guarantees. -/
structure QueueInv (f : List (BDD m)) (ms : List (MetricDim m)) (ops : List (OpFun m))
    (bs : List (Bucket m)) (test : List (List Nat)) : Prop where
  len : bs.length = (ms.map (·.gridSize)).prod
  box : ∀ v ∈ test, InBox v (ms.map (·.gridSize))
  closed : ∀ (i : Nat) (b : Bucket m), bs[i]? = some b →
    unrank (ms.map (·.gridSize)) i ∈ test ∨ b.isEmpty = true ∨ ClosedAt f ms ops bs b

/-- One round of the search. -/
theorem round_closed {f : List (BDD m)} {ms : List (MetricDim m)} {ops : List (OpFun m)}
    {populate : Bool} (hprod : (ms.map (·.gridSize)).prod < 2 ^ 64)
    (hd : ∀ d ∈ ms, 0 < d.bound ∧ d.gridSize ≠ 0) {bs bs' : List (Bucket m)} {test : List (List Nat)}
    {pos : List Nat} (hpos : pos ∈ test) {current : Nat} {b : Bucket m} {s : SearchState m}
    (hinv : QueueInv f ms ops bs test)
    (hc : reduceIndex pos (ms.map (·.gridSize)) = .ok current) (hb : bs[current]? = some b)
    (hs : opLoop f ms populate current b.function ops 0 ⟨bs, test.erase pos, b.possibleOps, []⟩ = .ok s)
    (hr : replaceLoop s.possible s.replace s.buckets = .ok bs') :
    QueueInv f ms ops bs' s.test ∧ Shrunk bs bs' ∧
    ∀ (o : Nat) (op : OpFun m), ops[o]? = some op → b.possibleOps[o]? = some true →
      ∃ c, bs'[current]? = some c ∧ WasTried f ms bs' b.function c.bddSize op := by
  obtain ⟨a1, a3, a4, a5, a6, a7⟩ := opLoop_closed hprod hd (by exact hinv.len) hs
  dsimp only at a1 a3 a4 a5 a6 a7
  have hsh := replaceLoop_shrunk hr
  have hall := a1.trans hsh
  have htr : ∀ (o : Nat) (op : OpFun m), ops[o]? = some op → b.possibleOps[o]? = some true →
      ∃ c, bs'[current]? = some c ∧ WasTried f ms bs' b.function c.bddSize op := by
    intro o op ho hp
    obtain ⟨c, hc, ht⟩ := a7 o op ho (by rw [Nat.zero_add]; exact hp)
    obtain ⟨c', hc', hle⟩ := hsh _ _ hc
    exact ⟨c', hc', ht.mono hsh hle⟩
  have hbox := hinv.box pos hpos
  rw [reduceIndex_eq hbox (le_of_lt hprod)] at hc
  cases hc
  refine ⟨⟨?_, fun v hv => ?_, fun i b' hb' => ?_⟩, hall, htr⟩
  · rw [(replaceLoop_same hr).length_eq, a5]
    exact hinv.len
  · rcases a6 v hv with h | h
    · exact hinv.box v (List.mem_of_mem_erase h)
    · exact h
  · rcases a4 i with ⟨h1, h2⟩ | ⟨h1, -⟩
    · rw [lastRep_nil] at h1
      have hsame : bs[i]? = some b' := by
        rw [replaceLoop_char hr i, h1, h2] at hb'
        cases hx : bs[i]? with
        | none => rw [hx] at hb'; cases hb'
        | some x => rw [hx] at hb'; exact hb'
      by_cases hi : i = rank (ms.map (·.gridSize)) pos
      · right; right
        intro o op ho hp
        rw [hi] at hsame hb'
        rw [hb] at hsame
        cases hsame
        obtain ⟨c, hc, ht⟩ := htr o op ho hp
        rw [hb'] at hc
        cases hc
        exact ht
      · rcases hinv.closed i b' hsame with h | h | h
        · left
          refine a3 _ ((List.mem_erase_of_ne fun he => hi ?_).mpr h)
          rw [← he, rank_unrank]
          rw [← hinv.len]
          exact lt_of_getElem? hsame
        · exact .inr (.inl h)
        · exact .inr (.inr (h.mono hall))
    · exact .inl h1

theorem searchLoop_closed {f : List (BDD m)} {ms : List (MetricDim m)} {ops : List (OpFun m)}
    {populate : Bool} (hprod : (ms.map (·.gridSize)).prod < 2 ^ 64)
    (hd : ∀ d ∈ ms, 0 < d.bound ∧ d.gridSize ≠ 0) {fuel : Nat} {bs r : List (Bucket m)}
    {test : List (List Nat)} (hinv : QueueInv f ms ops bs test)
    (h : searchLoop f ms ops populate fuel bs test = .ok r) :
    Shrunk bs r ∧ ∀ b ∈ r, b.isEmpty = true ∨ ClosedAt f ms ops r b := by
  have fin : ∀ bs, QueueInv f ms ops bs [] → ∀ b ∈ bs, b.isEmpty = true ∨ ClosedAt f ms ops bs b := by
    intro bs hinv b hb
    obtain ⟨i, hi⟩ := List.mem_iff_getElem?.mp hb
    rcases hinv.closed i b hi with h | h
    · simp at h
    · exact h
  induction fuel generalizing bs test with
  | zero =>
    cases test with
    | nil => unfold searchLoop at h; cases h; exact ⟨.refl _, fin _ hinv⟩
    | cons w ws => simp [searchLoop] at h
  | succ fuel ih =>
    cases test with
    | nil => unfold searchLoop at h; cases h; exact ⟨.refl _, fin _ hinv⟩
    | cons w ws =>
      rw [searchLoop] at h
      obtain ⟨c, hc, h⟩ := bind_ok h
      obtain ⟨b, hb, h⟩ := bind_ok h
      obtain ⟨s, hs, h⟩ := bind_ok h
      obtain ⟨bs', hbs', h⟩ := bind_ok h
      obtain ⟨h1, h2, -⟩ := round_closed hprod hd (minElement_mem w ws) hinv hc (vget_ok_iff.mp hb) hs hbs'
      obtain ⟨h3, h4⟩ := ih h1 h
      exact ⟨h2.trans h3, h4⟩

theorem bucketGreedyMinimize_closed {fuel : Nat} {f : List (BDD m)} {ms : List (MetricDim m)}
    {ops : List (OpFun m)} {populate : Bool} {r : List (Bucket m)}
    (hprod : (ms.map (·.gridSize)).prod < 2 ^ 64) (hbound : ∀ d ∈ ms, 0 < d.bound)
    (h : bucketGreedyMinimize fuel f ms ops populate = .ok r) :
    (∀ b ∈ r, b.isEmpty = true ∨ ClosedAt f ms ops r b) ∧
    ∀ op ∈ ops, ∃ g, op f = .ok g ∧ (overAny f ms g ∨ Covered f ms r g) := by
  unfold bucketGreedyMinimize at h
  split at h
  · cases h
  · dsimp only at h
    obtain ⟨first, hf, h⟩ := bind_ok h
    have hpos := createIndex_ok_pos hf
    have hd : ∀ d ∈ ms, 0 < d.bound ∧ d.gridSize ≠ 0 := fun d hd =>
      ⟨hbound d hd, hpos _ (List.mem_map_of_mem hd)⟩
    rw [createIndex_eq hpos] at hf
    cases hf
    have hinit : QueueInv f ms ops (List.replicate (totalBuckets (ms.map (·.gridSize)))
        (⟨f, nodeCount f, List.replicate ms.length 0, List.replicate ops.length true, true⟩ : Bucket m))
        [unrank (ms.map (·.gridSize)) 0] := by
      refine ⟨by rw [List.length_replicate, totalBuckets_eq hprod hpos], fun v hv => ?_, fun i b hb => ?_⟩
      · rw [List.mem_singleton.mp hv]
        exact unrank_inBox hpos 0
      · right; left
        rw [List.eq_of_mem_replicate (List.mem_of_getElem? hb)]
    rw [show setInsert (unrank (ms.map (·.gridSize)) 0) [] = [unrank (ms.map (·.gridSize)) 0] from rfl] at h
    refine ⟨(searchLoop_closed hprod hd hinit h).2, ?_⟩
    cases fuel with
    | zero => simp [searchLoop] at h
    | succ fuel =>
      rw [searchLoop] at h
      obtain ⟨c, hc, h⟩ := bind_ok h
      obtain ⟨b, hb, h⟩ := bind_ok h
      obtain ⟨s, hs, h⟩ := bind_ok h
      obtain ⟨bs', hbs', h⟩ := bind_ok h
      have hb := vget_ok_iff.mp hb
      obtain ⟨h1, -, h3⟩ := round_closed hprod hd (by simp [minElement]) hinit hc hb hs hbs'
      have hsh := (searchLoop_closed hprod hd h1 h).1
      rw [minElement, reduceIndex_eq (unrank_inBox hpos 0) (le_of_lt hprod),
        rank_unrank (prod_pos_of hpos)] at hc
      cases hc
      have hb := List.eq_of_mem_replicate (List.mem_of_getElem? hb)
      subst hb
      intro op hop
      obtain ⟨o, ho⟩ := List.mem_iff_getElem?.mp hop
      obtain ⟨c, hc, g, hg, ht⟩ := h3 o op ho (by
        rw [List.getElem?_replicate, if_pos (lt_of_getElem? ho)])
      refine ⟨g, hg, ?_⟩
      rcases ht with ht | ht | ht
      · right
        refine Covered.mono ⟨List.replicate ms.length 0, c, forall₂_coordLe_zero hd, ?_, ht⟩ hsh
        have : unrank (ms.map (·.gridSize)) 0 = List.replicate ms.length 0 := by
          have : ∀ l : List Nat, unrank l 0 = List.replicate l.length 0 := by
            intro l
            induction l with
            | nil => rfl
            | cons a l ih => simp [unrank, ih, List.replicate_succ]
          rw [this, List.length_map]
        rw [← this, rank_unrank (prod_pos_of hpos)]
        exact hc
      · exact .inl ht
      · exact .inr (ht.mono hsh)

end Verif

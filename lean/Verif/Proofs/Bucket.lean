import Verif.Model.Bucket
import Verif.Proofs.Operators
import Mathlib.Algebra.Order.BigOperators.Group.List
import Mathlib.Algebra.BigOperators.Group.List.Basic
import Mathlib.Tactic.Ring
import Mathlib.Tactic.Linarith
import Mathlib.Tactic.Positivity

/-! # Lemmas about `bucket_greedy_minimize` -/

namespace Verif

variable {m : Mgr}

/-! ## Multi dimensional indices -/

/-- The grid point at a position, as a total function. -/
def unrank : List Nat → Nat → List Nat
  | [], _ => []
  | b :: bs, k => (k / bs.prod) % b :: unrank bs k

theorem unrank_length (bs : List Nat) (k : Nat) : (unrank bs k).length = bs.length := by
  induction bs with
  | nil => rfl
  | cons b bs ih => simp [unrank, ih]

theorem prod_pos_of {bs : List Nat} (h : ∀ b ∈ bs, b ≠ 0) : 0 < bs.prod := by
  induction bs with
  | nil => simp
  | cons b bs ih =>
    rw [List.prod_cons]
    exact Nat.mul_pos (Nat.pos_of_ne_zero (h b (by simp))) (ih (fun c hc => h c (by simp [hc])))

theorem createLoop_ok {bs : List Nat} (h : ∀ b ∈ bs, b ≠ 0) (k : Nat) : ∃ r, createLoop bs k = .ok r := by
  induction bs generalizing k with
  | nil => exact ⟨[], rfl⟩
  | cons b bs ih =>
    obtain ⟨r, hr⟩ := ih (fun c hc => h c (by simp [hc])) (k / b)
    refine ⟨k % b :: r, ?_⟩
    unfold createLoop
    rw [if_neg (h b (by simp)), hr]
    rfl

theorem createLoop_append {l l' : List Nat} (h : ∀ b ∈ l, b ≠ 0) (k : Nat) :
    createLoop (l ++ l') k = (do
      let r ← createLoop l k
      let r' ← createLoop l' (k / l.prod)
      .ok (r ++ r')) := by
  induction l generalizing k with
  | nil =>
    simp only [List.nil_append, createLoop, List.prod_nil, Nat.div_one]
    show _ = (createLoop l' k).bind _
    cases createLoop l' k <;> rfl
  | cons b l ih =>
    have hb := h b (by simp)
    have e : ∀ bs i, createLoop (b :: bs) i = (do
        let r ← createLoop bs (i / b)
        .ok (i % b :: r)) := fun _ _ => by rw [createLoop, if_neg hb]
    rw [List.cons_append, e, e, ih (fun c hc => h c (by simp [hc])), List.prod_cons, Nat.div_div_eq_div_mul]
    obtain ⟨r, hr⟩ := createLoop_ok (fun c hc => h c (by simp [hc]) : ∀ c ∈ l, c ≠ 0) (k / b)
    rw [hr]
    show ((createLoop l' _).bind _).bind _ = (createLoop l' _).bind _
    cases createLoop l' (k / (b * l.prod)) <;> rfl

theorem createLoop_zero {l : List Nat} (h : 0 ∈ l) (k : Nat) : createLoop l k = .error .ub := by
  induction l generalizing k with
  | nil => simp at h
  | cons b l ih =>
    unfold createLoop
    by_cases hb : b = 0
    · rw [if_pos hb]
    · rw [if_neg hb, ih (by simpa [Ne.symm hb] using h)]
      rfl

theorem createIndex_eq {bs : List Nat} (h : ∀ b ∈ bs, b ≠ 0) (k : Nat) :
    createIndex k bs = .ok (unrank bs k) := by
  have key : createLoop bs.reverse k = .ok (unrank bs k).reverse := by
    induction bs with
    | nil => rfl
    | cons b bs ih =>
      have h' : ∀ c ∈ bs, c ≠ 0 := fun c hc => h c (by simp [hc])
      rw [List.reverse_cons, createLoop_append (by simpa using h'), ih h', List.prod_reverse]
      simp only [unrank, List.reverse_cons]
      unfold createLoop
      rw [if_neg (h b (by simp))]
      rfl
  unfold createIndex
  rw [key]
  show Except.ok _ = _
  rw [List.reverse_reverse]

theorem createIndex_zero {bs : List Nat} (h : 0 ∈ bs) (k : Nat) : createIndex k bs = .error .ub := by
  unfold createIndex
  rw [createLoop_zero (by simpa using h)]
  rfl

theorem createIndex_ok_pos {bs : List Nat} {k : Nat} {r : List Nat} (h : createIndex k bs = .ok r) :
    ∀ b ∈ bs, b ≠ 0 := by
  intro b hb hz
  rw [createIndex_zero (hz ▸ hb)] at h
  cases h

theorem InBox.pos {idx bs : List Nat} (h : InBox idx bs) : ∀ b ∈ bs, b ≠ 0 := by
  induction h with
  | nil => simp
  | cons h1 _ ih =>
    intro b hb
    rcases List.mem_cons.mp hb with rfl | hb
    · omega
    · exact ih b hb

theorem rank_lt {idx bs : List Nat} (h : InBox idx bs) : rank bs idx < bs.prod := by
  induction h with
  | nil => simp [rank]
  | cons h1 _ ih =>
    rename_i i b is bs _
    rw [rank, List.prod_cons]
    calc i * bs.prod + rank bs is < i * bs.prod + bs.prod := by omega
      _ = (i + 1) * bs.prod := by ring
      _ ≤ b * bs.prod := Nat.mul_le_mul_right _ h1

theorem unrank_add_mul (bs : List Nat) (h : ∀ b ∈ bs, b ≠ 0) (i r : Nat) :
    unrank bs (i * bs.prod + r) = unrank bs r := by
  induction bs generalizing i with
  | nil => rfl
  | cons b bs ih =>
    have h' : ∀ c ∈ bs, c ≠ 0 := fun c hc => h c (by simp [hc])
    have hp := prod_pos_of h'
    have e : i * (b :: bs).prod + r = (i * b) * bs.prod + r := by rw [List.prod_cons]; ring
    rw [e]
    simp only [unrank]
    rw [ih h', show i * b * bs.prod + r = r + bs.prod * (i * b) by ring, Nat.add_mul_div_left _ _ hp,
      Nat.add_mul_mod_self_right]

theorem unrank_rank {idx bs : List Nat} (h : InBox idx bs) : unrank bs (rank bs idx) = idx := by
  induction h with
  | nil => rfl
  | cons h1 ht ih =>
    rename_i i b is bs
    have hp := prod_pos_of (InBox.pos ht)
    have hl := rank_lt ht
    simp only [rank, unrank]
    rw [unrank_add_mul _ (InBox.pos ht), ih, show i * bs.prod + rank bs is = rank bs is + bs.prod * i by ring,
      Nat.add_mul_div_left _ _ hp, Nat.div_eq_of_lt hl, Nat.zero_add, Nat.mod_eq_of_lt h1]

theorem unrank_inBox {bs : List Nat} (h : ∀ b ∈ bs, b ≠ 0) (k : Nat) : InBox (unrank bs k) bs := by
  induction bs with
  | nil => exact .nil
  | cons b bs ih =>
    exact .cons (Nat.mod_lt _ (Nat.pos_of_ne_zero (h b (by simp)))) (ih (fun c hc => h c (by simp [hc])))

theorem rank_unrank {bs : List Nat} {k : Nat} (hk : k < bs.prod) : rank bs (unrank bs k) = k := by
  have hpos : ∀ b ∈ bs, b ≠ 0 := by
    intro b hb hz
    rw [List.prod_eq_zero (hz ▸ hb)] at hk
    omega
  induction bs generalizing k with
  | nil => simp [rank] at *; omega
  | cons b bs ih =>
    have h' : ∀ c ∈ bs, c ≠ 0 := fun c hc => hpos c (by simp [hc])
    have hp := prod_pos_of h'
    rw [List.prod_cons] at hk
    simp only [unrank, rank]
    have h1 : k / bs.prod < b := Nat.div_lt_of_lt_mul (by rwa [mul_comm] at hk)
    rw [Nat.mod_eq_of_lt h1]
    have h2 : unrank bs k = unrank bs (k % bs.prod) := by
      conv_lhs => rw [← Nat.div_add_mod k bs.prod, mul_comm]
      exact unrank_add_mul bs h' _ _
    rw [h2, ih (Nat.mod_lt _ hp) h', mul_comm]
    exact Nat.div_add_mod k bs.prod

theorem rank_mono {bs i j : List Nat} (h : LeIdx i j) : rank bs i ≤ rank bs j := by
  induction h generalizing bs with
  | nil => exact le_rfl
  | cons h1 _ ih =>
    cases bs with
    | nil => exact le_rfl
    | cons b bs =>
      simp only [rank]
      exact Nat.add_le_add (Nat.mul_le_mul_right _ h1) ih

theorem reduceLoop_eq {idx bs : List Nat} (h : InBox idx bs) (r : Nat)
    (hb : r * bs.prod + rank bs idx < 2 ^ 64) :
    reduceLoop bs idx r = .ok (r * bs.prod + rank bs idx) := by
  induction h generalizing r with
  | nil => simp [reduceLoop, rank]
  | cons h1 ht ih =>
    rename_i i b is bs
    have hp := prod_pos_of (InBox.pos ht)
    rw [List.prod_cons, rank] at hb
    have e : (r * b + i) * bs.prod + rank bs is = r * (b * bs.prod) + (i * bs.prod + rank bs is) := by ring
    have h2 : r * b + i < 2 ^ 64 := by
      have := Nat.le_mul_of_pos_right (r * b + i) hp
      omega
    unfold reduceLoop
    rw [show uszt (uszt (r * b) + i) = r * b + i by
      unfold uszt
      rw [Nat.mod_eq_of_lt (show r * b < 2 ^ 64 by omega), Nat.mod_eq_of_lt h2]]
    rw [ih _ (by omega), e, List.prod_cons, rank]

theorem reduceIndex_eq {idx bs : List Nat} (h : InBox idx bs) (hb : bs.prod ≤ 2 ^ 64) :
    reduceIndex idx bs = .ok (rank bs idx) := by
  have := rank_lt h
  unfold reduceIndex
  rw [reduceLoop_eq h 0 (by omega), zero_mul, zero_add]

theorem totalBuckets_aux (grid : List Nat) (a : Nat) (h : a * grid.prod < 2 ^ 64)
    (hpos : ∀ b ∈ grid, b ≠ 0) :
    grid.foldl (fun a b => uszt (a * b)) a = a * grid.prod := by
  induction grid generalizing a with
  | nil => simp
  | cons b bs ih =>
    have hp := prod_pos_of (fun c hc => hpos c (by simp [hc]) : ∀ c ∈ bs, c ≠ 0)
    rw [List.prod_cons, ← mul_assoc] at h
    have h2 : a * b < 2 ^ 64 := lt_of_le_of_lt (Nat.le_mul_of_pos_right _ hp) h
    rw [List.foldl_cons, show uszt (a * b) = a * b from Nat.mod_eq_of_lt h2,
      ih _ h (fun c hc => hpos c (by simp [hc])), List.prod_cons, mul_assoc]

theorem totalBuckets_eq {grid : List Nat} (h : grid.prod < 2 ^ 64) (hpos : ∀ b ∈ grid, b ≠ 0) :
    totalBuckets grid = grid.prod := by
  unfold totalBuckets
  rw [totalBuckets_aux grid 1 (by rwa [one_mul]) hpos, one_mul]

/-! ## Outcomes -/

theorem bind_ok {α β : Type _} {x : Except Fault α} {g : α → Except Fault β} {r : β}
    (h : (x >>= g) = .ok r) : ∃ a, x = .ok a ∧ g a = .ok r := by
  cases x with
  | error e => cases h
  | ok a => exact ⟨a, rfl, h⟩

theorem bind_fuel {α β : Type _} {x : Except Fault α} {g : α → Except Fault β}
    (h : (x >>= g) = .error .fuel) : x = .error .fuel ∨ ∃ a, x = .ok a ∧ g a = .error .fuel := by
  cases x with
  | error e => left; cases h; rfl
  | ok a => exact .inr ⟨a, rfl, h⟩

theorem vget_ok_iff {α : Type _} {l : List α} {i : Nat} {a : α} : vget l i = .ok a ↔ l[i]? = some a := by
  induction l generalizing i with
  | nil => simp [vget]
  | cons b l ih =>
    cases i with
    | zero => simp [vget]
    | succ i => simp [vget, ih]

theorem vget_ne_fuel {α : Type _} {l : List α} {i : Nat} : vget l i ≠ .error .fuel := by
  induction l generalizing i with
  | nil => simp [vget]
  | cons b l ih =>
    cases i with
    | zero => simp [vget]
    | succ i => simpa [vget] using ih

/-! ## The work set -/

theorem mem_setInsert {v w : List Nat} {s : List (List Nat)} : w ∈ setInsert v s ↔ w = v ∨ w ∈ s := by
  induction s with
  | nil => simp [setInsert]
  | cons u s ih =>
    unfold setInsert
    by_cases h : v = u
    · subst h; simp
    · rw [if_neg h]
      by_cases h2 : lexLt v u = true
      · rw [if_pos h2]; simp
      · rw [if_neg h2]
        simp only [List.mem_cons, ih]
        tauto

theorem setInsert_length (v : List Nat) (s : List (List Nat)) : (setInsert v s).length ≤ s.length + 1 := by
  induction s with
  | nil => simp [setInsert]
  | cons u s ih =>
    unfold setInsert
    split
    · simp
    · split
      · simp
      · simpa using ih

theorem minElement_mem (w : List Nat) (ws : List (List Nat)) : minElement w ws ∈ w :: ws := by
  induction ws generalizing w with
  | nil => simp [minElement]
  | cons v vs ih =>
    unfold minElement
    split
    · have := ih v
      simp only [List.mem_cons] at this ⊢
      tauto
    · have := ih w
      simp only [List.mem_cons] at this ⊢
      tauto

/-! ## The metric loop -/

/-- The metric loop went through: per metric the error of `g`, its grid coordinate, and its range. -/
inductive MetOk (f g : List (BDD m)) : List (MetricDim m) → List Nat → List ℚ → Prop
  | nil : MetOk f g [] [] []
  | cons {d : MetricDim m} {ds k idx v vs} : d.metric f g = .ok v → d.bound ≠ 0 →
      toSizeT (d.gridSize * v / d.bound) = .ok k → k < d.gridSize → MetOk f g ds idx vs →
      MetOk f g (d :: ds) (k :: idx) (v :: vs)

theorem MetOk.inBox {f g : List (BDD m)} {ds idx vs} (h : MetOk f g ds idx vs) :
    InBox idx (ds.map (·.gridSize)) := by
  induction h with
  | nil => exact .nil
  | cons _ _ _ h _ ih => exact .cons h ih

theorem metricLoop_better {grid : List Nat} {f g : List (BDD m)} {bs : List (Bucket m)} {nodes : Nat}
    {ds : List (MetricDim m)} {idx vals I V}
    (h : metricLoop grid f g bs nodes ds idx vals = .ok (.better I V)) :
    ∃ I' V', I = idx ++ I' ∧ V = vals ++ V' ∧ MetOk f g ds I' V' := by
  induction ds generalizing idx vals with
  | nil =>
    unfold metricLoop at h
    cases h
    exact ⟨[], [], by simp, by simp, .nil⟩
  | cons d ds ih =>
    unfold metricLoop at h
    obtain ⟨e, he, h⟩ := bind_ok h
    have he' : d.metric f g = .ok e := by
      revert he
      unfold convertible
      split
      · intro h; cases h
      · exact id
    split at h
    · cases h
    rename_i hb
    obtain ⟨k, hk, h⟩ := bind_ok h
    split at h
    · cases h
    rename_i hkg
    obtain ⟨p, hp, h⟩ := bind_ok h
    obtain ⟨b, hb', h⟩ := bind_ok h
    split at h
    · cases h
    obtain ⟨I', V', h1, h2, h3⟩ := ih h
    exact ⟨k :: I', e :: V', by simp [h1], by simp [h2], .cons he' hb hk (by omega) h3⟩

theorem toSizeT_le {q : ℚ} {k : Nat} (h : toSizeT q = .ok k) : q < k + 1 := by
  unfold toSizeT at h
  split at h
  · cases h
  · cases h
    have h1 : q < ⌊q⌋ + 1 := Int.lt_floor_add_one q
    have h2 : (⌊q⌋ : ℚ) ≤ (⌊q⌋.toNat : ℚ) := by
      exact_mod_cast Int.self_le_toNat ⌊q⌋
    linarith

theorem toSizeT_total {q : ℚ} (h0 : 0 ≤ q) (h1 : q < 2 ^ 64) : ∃ k, toSizeT q = .ok k := by
  refine ⟨⌊q⌋.toNat, ?_⟩
  unfold toSizeT
  rw [if_neg]
  rintro (h | h) <;> linarith

theorem toSizeT_ne_fuel (q : ℚ) : toSizeT q ≠ .error .fuel := by
  unfold toSizeT
  split <;> simp

theorem createLoop_ne_fuel (bs : List Nat) (k : Nat) : createLoop bs k ≠ .error .fuel := by
  by_cases h : 0 ∈ bs
  · rw [createLoop_zero h]; simp
  · obtain ⟨r, hr⟩ := createLoop_ok (bs := bs) (fun b hb hz => h (hz ▸ hb)) k
    rw [hr]; simp

theorem createIndex_ne_fuel (bs : List Nat) (k : Nat) : createIndex k bs ≠ .error .fuel := by
  by_cases h : 0 ∈ bs
  · rw [createIndex_zero h]; simp
  · rw [createIndex_eq (fun b hb hz => h (hz ▸ hb))]; simp

theorem reduceLoop_ne_fuel (bs idx : List Nat) (r : Nat) : reduceLoop bs idx r ≠ .error .fuel := by
  induction bs generalizing idx r with
  | nil => simp [reduceLoop]
  | cons b bs ih =>
    cases idx with
    | nil => simp [reduceLoop]
    | cons i is => rw [reduceLoop]; exact ih _ _

theorem metricLoop_ne_fuel {grid : List Nat} {f g : List (BDD m)} {bs : List (Bucket m)} {nodes : Nat}
    {ds : List (MetricDim m)} {idx vals} (hm : ∀ d ∈ ds, d.metric f g ≠ .error .fuel) :
    metricLoop grid f g bs nodes ds idx vals ≠ .error .fuel := by
  induction ds generalizing idx vals with
  | nil => simp [metricLoop]
  | cons d ds ih =>
    intro h
    unfold metricLoop at h
    rcases bind_fuel h with h | ⟨e, -, h⟩
    · unfold convertible at h
      split at h
      · cases h
      · exact hm d (by simp) h
    split at h
    · cases h
    rcases bind_fuel h with h | ⟨k, -, h⟩
    · exact toSizeT_ne_fuel _ h
    split at h
    · cases h
    rcases bind_fuel h with h | ⟨p, -, h⟩
    · exact reduceLoop_ne_fuel _ _ _ h
    rcases bind_fuel h with h | ⟨b, -, h⟩
    · exact vget_ne_fuel h
    split at h
    · cases h
    exact ih (fun d hd => hm d (by simp [hd])) h

theorem forall₂_replicate_zero (ds : List Nat) (h : ∀ b ∈ ds, b ≠ 0) :
    InBox (List.replicate ds.length 0) ds := by
  induction ds with
  | nil => exact .nil
  | cons b ds ih =>
    exact .cons (Nat.pos_of_ne_zero (h b (by simp))) (ih (fun c hc => h c (by simp [hc])))

theorem InBox.append {i j a b : List Nat} (h1 : InBox i a) (h2 : InBox j b) : InBox (i ++ j) (a ++ b) := by
  induction h1 with
  | nil => exact h2
  | cons h _ ih => exact .cons h ih

theorem metricLoop_total {f g : List (BDD m)} {bs : List (Bucket m)} {nodes : Nat}
    {ms ds : List (MetricDim m)} {done : List (MetricDim m)} {idx vals}
    (hms : ms = done ++ ds) (hidx : InBox idx (done.map (·.gridSize)))
    (hpos : ∀ d ∈ ms, d.gridSize ≠ 0) (hprod : (ms.map (·.gridSize)).prod < 2 ^ 64)
    (hlen : bs.length = (ms.map (·.gridSize)).prod)
    (hm : ∀ d ∈ ds, d.bound ≠ 0 ∧ ∃ v, d.metric f g = .ok v ∧ 0 ≤ d.gridSize * v / d.bound ∧
      d.gridSize * v / d.bound < 2 ^ 64) :
    ∃ r, metricLoop (ms.map (·.gridSize)) f g bs nodes ds idx vals = .ok r := by
  induction ds generalizing idx vals done with
  | nil => exact ⟨_, rfl⟩
  | cons d ds ih =>
    obtain ⟨hb, v, hv, h0, h1⟩ := hm d (by simp)
    obtain ⟨k, hk⟩ := toSizeT_total h0 h1
    unfold metricLoop
    rw [show convertible (d.metric f g) = .ok v by rw [hv]; rfl]
    show ∃ r, (if d.bound = 0 then _ else _) = _
    rw [if_neg hb, hk]
    show ∃ r, (if d.gridSize ≤ k then _ else _) = _
    by_cases hkg : d.gridSize ≤ k
    · rw [if_pos hkg]; exact ⟨_, rfl⟩
    rw [if_neg hkg]
    have hbox1 : InBox (idx ++ [k]) ((done ++ [d]).map (·.gridSize)) := by
      rw [List.map_append]
      exact hidx.append (.cons (Nat.lt_of_not_le hkg) .nil)
    have hbox : InBox (idx ++ [k] ++ List.replicate ds.length 0) (ms.map (·.gridSize)) := by
      rw [hms, List.map_append, List.map_cons,
        show done.map (·.gridSize) ++ d.gridSize :: ds.map (·.gridSize) =
          (done ++ [d]).map (·.gridSize) ++ ds.map (·.gridSize) by simp]
      refine hbox1.append ?_
      have := forall₂_replicate_zero (ds.map (·.gridSize)) (by
        intro b hb
        obtain ⟨d', hd', rfl⟩ := List.mem_map.mp hb
        exact hpos d' (by simp [hms, hd']))
      rwa [List.length_map] at this
    rw [reduceIndex_eq hbox (le_of_lt hprod)]
    have hlt := rank_lt hbox
    rw [← hlen] at hlt
    show ∃ r, (vget bs _ >>= _) = _
    rw [vget_eq bs _ bs[rank (ms.map (·.gridSize)) (idx ++ [k] ++ List.replicate ds.length 0)] hlt]
    show ∃ r, (if _ ≤ nodes then _ else _) = _
    split
    · exact ⟨_, rfl⟩
    · exact ih (done := done ++ [d]) (by simp [hms]) hbox1 (fun d hd => hm d (by simp [hd]))

/-! ## The update loop -/

/-- The test of the update loop for a grid point that is below the new one in some coordinate. -/
def belowSome (idx newIdx : List Nat) : Bool := (List.zipWith (fun a c => decide (a < c)) idx newIdx).any id

theorem belowSome_false_iff {idx newIdx : List Nat} (h : idx.length = newIdx.length) :
    belowSome idx newIdx = false ↔ LeIdx newIdx idx := by
  induction newIdx generalizing idx with
  | nil =>
    cases idx with
    | nil => simp [belowSome, LeIdx]
    | cons => simp at h
  | cons a as ih =>
    cases idx with
    | nil => simp at h
    | cons b bs =>
      have := ih (idx := bs) (by simpa using h)
      simp only [belowSome, LeIdx, List.zipWith_cons_cons, List.any_cons, id, Bool.or_eq_false_iff,
        decide_eq_false_iff_not, not_lt, List.forall₂_cons] at this ⊢
      rw [this]

/-- The bucket written by the update loop. -/
def written (modified : List (BDD m)) (nodes : Nat) (vals : List ℚ) (b : Bucket m) : Bucket m :=
  { b with function := modified, bddSize := nodes, metricValues := vals, isEmpty := false }

/-- The condition under which position `i` is written. -/
def hits (grid newIdx : List Nat) (nodes lo hi i : Nat) (b : Bucket m) : Prop :=
  lo ≤ i ∧ i < hi ∧ nodes < b.bddSize ∧ belowSome (unrank grid i) newIdx = false

instance (grid newIdx : List Nat) (nodes lo hi i : Nat) (b : Bucket m) :
    Decidable (hits grid newIdx nodes lo hi i b) := by unfold hits; infer_instance

theorem updateLoop_char {grid newIdx : List Nat} (hpos : ∀ b ∈ grid, b ≠ 0) {modified : List (BDD m)}
    {nodes : Nat} {vals : List ℚ} {opnum n i : Nat} {s s' : SearchState m}
    (h : updateLoop grid newIdx modified nodes vals opnum n i s = .ok s') (j : Nat) :
    s'.buckets[j]? = s.buckets[j]?.map (fun b =>
      if hits grid newIdx nodes i (i + n) j b then written modified nodes vals b else b) := by
  induction n generalizing i s with
  | zero =>
    unfold updateLoop at h
    cases h
    have : ∀ b : Bucket m, ¬ hits grid newIdx nodes i (i + 0) j b := by
      intro b hb
      have := hb.1
      have := hb.2.1
      omega
    simp only [this, if_false, Option.map_id']
  | succ n ih =>
    unfold updateLoop at h
    obtain ⟨b, hb, h⟩ := bind_ok h
    have hb' := vget_ok_iff.mp hb
    have skip : (hits grid newIdx nodes i (i + (n + 1)) i b → False) →
        s.buckets[j]?.map (fun b =>
          if hits grid newIdx nodes (i + 1) (i + 1 + n) j b then written modified nodes vals b else b) =
        s.buckets[j]?.map (fun b =>
          if hits grid newIdx nodes i (i + (n + 1)) j b then written modified nodes vals b else b) := by
      intro hno
      by_cases hj : j = i
      · subst hj
        rw [hb']
        simp only [Option.map_some]
        rw [if_neg hno, if_neg (fun h => by have := h.1; omega)]
      · congr 1
        funext c
        have : hits grid newIdx nodes (i + 1) (i + 1 + n) j c ↔
            hits grid newIdx nodes i (i + (n + 1)) j c := by
          unfold hits
          constructor
          · rintro ⟨h1, h2, h3⟩; exact ⟨by omega, by omega, h3⟩
          · rintro ⟨h1, h2, h3⟩; exact ⟨by omega, by omega, h3⟩
        simp only [this]
    split at h
    · rename_i hle
      rw [ih h, skip]
      intro hh
      have := hh.2.2.1
      omega
    · rename_i hlt
      rw [createIndex_eq hpos] at h
      obtain ⟨index, hi, h⟩ := bind_ok h
      cases hi
      split at h
      · rename_i hany
        rw [ih h, skip]
        intro hh
        have := hh.2.2.2
        unfold belowSome at this
        rw [hany] at this
        cases this
      · rename_i hany
        rw [ih h]
        by_cases hj : j = i
        · subst hj
          have hlt' : j < s.buckets.length := by
            by_contra hc
            rw [List.getElem?_eq_none (by omega)] at hb'
            cases hb'
          rw [List.getElem?_set_self hlt', hb']
          simp only [Option.map_some]
          rw [if_neg (fun h => by have := h.1; omega), if_pos ⟨le_rfl, by omega, by omega, by
            unfold belowSome
            simpa using hany⟩]
          rfl
        · dsimp only
          rw [List.getElem?_set_ne (fun e => hj e.symm)]
          congr 1
          funext c
          have : hits grid newIdx nodes (i + 1) (i + 1 + n) j c ↔
              hits grid newIdx nodes i (i + (n + 1)) j c := by
            unfold hits
            constructor
            · rintro ⟨h1, h2, h3⟩; exact ⟨by omega, by omega, h3⟩
            · rintro ⟨h1, h2, h3⟩; exact ⟨by omega, by omega, h3⟩
          simp only [this]

/-- Sum of the bucket sizes plus the size of the work set. -/
def work (bs : List (Bucket m)) (test : List (List Nat)) : Nat := (bs.map (·.bddSize)).sum + test.length

theorem sum_set_lt {bs : List (Bucket m)} {i : Nat} {b c : Bucket m} (h : bs[i]? = some b)
    (hlt : c.bddSize < b.bddSize) :
    ((bs.set i c).map (·.bddSize)).sum + 1 ≤ (bs.map (·.bddSize)).sum := by
  induction bs generalizing i with
  | nil => simp at h
  | cons a bs ih =>
    cases i with
    | zero =>
      simp only [List.getElem?_cons_zero, Option.some.injEq] at h
      subst h
      simp only [List.set_cons_zero, List.map_cons, List.sum_cons]
      omega
    | succ i =>
      rw [List.getElem?_cons_succ] at h
      have := ih h
      simp only [List.set_cons_succ, List.map_cons, List.sum_cons]
      omega

theorem updateLoop_work {grid newIdx : List Nat} {modified : List (BDD m)}
    {nodes : Nat} {vals : List ℚ} {opnum n i : Nat} {s s' : SearchState m}
    (h : updateLoop grid newIdx modified nodes vals opnum n i s = .ok s') :
    work s'.buckets s'.test ≤ work s.buckets s.test := by
  induction n generalizing i s with
  | zero => unfold updateLoop at h; cases h; exact le_rfl
  | succ n ih =>
    unfold updateLoop at h
    obtain ⟨b, hb, h⟩ := bind_ok h
    split at h
    · exact ih h
    · rename_i hlt
      obtain ⟨index, hi, h⟩ := bind_ok h
      split at h
      · exact ih h
      · refine le_trans (ih h) ?_
        unfold work
        dsimp only
        have h1 := sum_set_lt (vget_ok_iff.mp hb)
          (show (written modified nodes vals b).bddSize < b.bddSize from Nat.lt_of_not_le hlt)
        have h2 := setInsert_length index s.test
        unfold written at h1
        omega

theorem updateLoop_frame {grid newIdx : List Nat} {modified : List (BDD m)}
    {nodes : Nat} {vals : List ℚ} {opnum n i : Nat} {s s' : SearchState m}
    (h : updateLoop grid newIdx modified nodes vals opnum n i s = .ok s') :
    s'.buckets.length = s.buckets.length ∧ s'.possible = s.possible ∧
    (∀ v ∈ s'.test, v ∈ s.test ∨ ∃ k < s.buckets.length, createIndex k grid = .ok v) ∧
    (∀ p ∈ s'.replace, p ∈ s.replace ∨ (p.1 < s.buckets.length ∧ p.2 = opnum)) := by
  induction n generalizing i s with
  | zero =>
    unfold updateLoop at h; cases h
    exact ⟨rfl, rfl, fun v hv => .inl hv, fun p hp => .inl hp⟩
  | succ n ih =>
    unfold updateLoop at h
    obtain ⟨b, hb, h⟩ := bind_ok h
    split at h
    · exact ih h
    · obtain ⟨index, hi, h⟩ := bind_ok h
      split at h
      · exact ih h
      · obtain ⟨h1, h2, h3, h4⟩ := ih h
        dsimp only at h1 h2 h3 h4
        rw [List.length_set] at h1 h3 h4
        have hlt : i < s.buckets.length := by
          by_contra hc
          have := vget_ok_iff.mp hb
          rw [List.getElem?_eq_none (by omega)] at this
          cases this
        refine ⟨h1, h2, fun v hv => ?_, fun p hp => ?_⟩
        · rcases h3 v hv with h | h
          · rcases mem_setInsert.mp h with rfl | h
            · exact .inr ⟨i, hlt, hi⟩
            · exact .inl h
          · exact .inr h
        · rcases h4 p hp with h | h
          · rcases List.mem_append.mp h with h | h
            · exact .inl h
            · rw [List.mem_singleton.mp h]
              exact .inr ⟨hlt, rfl⟩
          · exact .inr h

theorem updateLoop_total {grid newIdx : List Nat} (hpos : ∀ b ∈ grid, b ≠ 0) {modified : List (BDD m)}
    {nodes : Nat} {vals : List ℚ} {opnum n i : Nat} {s : SearchState m}
    (hn : i + n ≤ s.buckets.length) :
    ∃ s', updateLoop grid newIdx modified nodes vals opnum n i s = .ok s' := by
  induction n generalizing i s with
  | zero => exact ⟨_, rfl⟩
  | succ n ih =>
    unfold updateLoop
    rw [vget_eq s.buckets i s.buckets[i] (by omega)]
    show ∃ s', (if _ ≤ nodes then _ else _) = _
    split
    · exact ih (by omega)
    · rw [createIndex_eq hpos]
      show ∃ s', ite (_ = true) _ _ = _
      split
      · exact ih (by omega)
      · exact ih (by dsimp only; rw [List.length_set]; omega)

theorem updateLoop_ne_fuel {grid newIdx : List Nat} {modified : List (BDD m)}
    {nodes : Nat} {vals : List ℚ} {opnum n i : Nat} {s : SearchState m} :
    updateLoop grid newIdx modified nodes vals opnum n i s ≠ .error .fuel := by
  induction n generalizing i s with
  | zero => simp [updateLoop]
  | succ n ih =>
    intro h
    unfold updateLoop at h
    rcases bind_fuel h with h | ⟨b, -, h⟩
    · exact vget_ne_fuel h
    split at h
    · exact ih h
    · rcases bind_fuel h with h | ⟨b, -, h⟩
      · exact createIndex_ne_fuel _ _ h
      split at h
      · exact ih h
      · exact ih h

/-! ## The operator loop -/

theorem opStep_cases {f : List (BDD m)} {ms : List (MetricDim m)} {populate : Bool} {current : Nat}
    {bf : List (BDD m)} {op : OpFun m} {opnum : Nat} {s s' : SearchState m}
    (h : opStep f ms populate current bf op opnum s = .ok s') :
    (s'.buckets = s.buckets ∧ s'.test = s.test ∧ s'.replace = s.replace ∧
      s'.possible.length = s.possible.length) ∨
    ∃ g idx vals start, op bf = .ok g ∧ MetOk f g ms idx vals ∧
      reduceIndex idx (ms.map (·.gridSize)) = .ok start ∧
      updateLoop (ms.map (·.gridSize)) idx g (nodeCount g) vals opnum
        (if populate then s.buckets.length - start else 1) start s = .ok s' := by
  unfold opStep at h
  obtain ⟨flag, -, h⟩ := bind_ok h
  split at h
  · obtain ⟨g, hg, h⟩ := bind_ok h
    obtain ⟨cur, -, h⟩ := bind_ok h
    split at h
    · cases h
      left
      split
      · exact ⟨rfl, rfl, rfl, by simp⟩
      · exact ⟨rfl, rfl, rfl, rfl⟩
    · obtain ⟨r, hr, h⟩ := bind_ok h
      cases r with
      | notBetter => cases h; exact .inl ⟨rfl, rfl, rfl, rfl⟩
      | exceeded => cases h; exact .inl ⟨rfl, rfl, rfl, by simp⟩
      | better idx vals =>
        obtain ⟨start, hs, h⟩ := bind_ok h
        obtain ⟨I, V, h1, h2, h3⟩ := metricLoop_better hr
        rw [List.nil_append] at h1 h2
        subst h1 h2
        exact .inr ⟨g, idx, vals, start, hg, h3, hs, h⟩
  · cases h; exact .inl ⟨rfl, rfl, rfl, rfl⟩

theorem opStep_ne_fuel {f : List (BDD m)} {ms : List (MetricDim m)} {populate : Bool} {current : Nat}
    {bf : List (BDD m)} {op : OpFun m} {opnum : Nat} {s : SearchState m}
    (hop : op bf ≠ .error .fuel) (hm : ∀ d ∈ ms, ∀ g, d.metric f g ≠ .error .fuel) :
    opStep f ms populate current bf op opnum s ≠ .error .fuel := by
  intro h
  unfold opStep at h
  rcases bind_fuel h with h | ⟨flag, -, h⟩
  · exact vget_ne_fuel h
  split at h
  · rcases bind_fuel h with h | ⟨g, -, h⟩
    · exact hop h
    rcases bind_fuel h with h | ⟨cur, -, h⟩
    · exact vget_ne_fuel h
    split at h
    · cases h
    · rcases bind_fuel h with h | ⟨r, -, h⟩
      · exact metricLoop_ne_fuel (fun d hd => hm d hd g) h
      cases r with
      | notBetter => cases h
      | exceeded => cases h
      | better idx vals =>
        rcases bind_fuel h with h | ⟨start, -, h⟩
        · exact reduceLoop_ne_fuel _ _ _ h
        exact updateLoop_ne_fuel h
  · cases h

theorem opStep_work {f : List (BDD m)} {ms : List (MetricDim m)} {populate : Bool} {current : Nat}
    {bf : List (BDD m)} {op : OpFun m} {opnum : Nat} {s s' : SearchState m}
    (h : opStep f ms populate current bf op opnum s = .ok s') :
    work s'.buckets s'.test ≤ work s.buckets s.test := by
  rcases opStep_cases h with ⟨h1, h2, -⟩ | ⟨g, idx, vals, start, -, -, -, h⟩
  · rw [h1, h2]
  · exact updateLoop_work h

theorem opLoop_work {f : List (BDD m)} {ms : List (MetricDim m)} {populate : Bool} {current : Nat}
    {bf : List (BDD m)} {ops : List (OpFun m)} {opnum : Nat} {s s' : SearchState m}
    (h : opLoop f ms populate current bf ops opnum s = .ok s') :
    work s'.buckets s'.test ≤ work s.buckets s.test := by
  induction ops generalizing opnum s with
  | nil => unfold opLoop at h; cases h; exact le_rfl
  | cons op ops ih =>
    unfold opLoop at h
    obtain ⟨s1, h1, h⟩ := bind_ok h
    exact le_trans (ih h) (opStep_work h1)

theorem opLoop_ne_fuel {f : List (BDD m)} {ms : List (MetricDim m)} {populate : Bool} {current : Nat}
    {bf : List (BDD m)} {ops : List (OpFun m)} {opnum : Nat} {s : SearchState m}
    (hop : ∀ op ∈ ops, op bf ≠ .error .fuel) (hm : ∀ d ∈ ms, ∀ g, d.metric f g ≠ .error .fuel) :
    opLoop f ms populate current bf ops opnum s ≠ .error .fuel := by
  induction ops generalizing opnum s with
  | nil => simp [opLoop]
  | cons op ops ih =>
    intro h
    unfold opLoop at h
    rcases bind_fuel h with h | ⟨s1, -, h⟩
    · exact opStep_ne_fuel (hop op (by simp)) hm h
    · exact ih (fun op h => hop op (by simp [h])) h

/-! ## The loop over the replaced buckets -/

/-- Buckets agree in everything but the possible operators. -/
def SameBut (b c : Bucket m) : Prop := b.function = c.function ∧ b.bddSize = c.bddSize ∧
  b.metricValues = c.metricValues ∧ b.isEmpty = c.isEmpty

theorem replaceLoop_same {possible : List Bool} {reps : List (Nat × Nat)} {bs bs' : List (Bucket m)}
    (h : replaceLoop possible reps bs = .ok bs') : List.Forall₂ SameBut bs' bs := by
  induction reps generalizing bs with
  | nil =>
    unfold replaceLoop at h; cases h
    exact List.forall₂_same.mpr (fun _ _ => ⟨rfl, rfl, rfl, rfl⟩)
  | cons p reps ih =>
    obtain ⟨i, op⟩ := p
    unfold replaceLoop at h
    obtain ⟨b, hb, h⟩ := bind_ok h
    obtain ⟨_, -, h⟩ := bind_ok h
    have h1 := ih h
    have hb := vget_ok_iff.mp hb
    rw [List.forall₂_iff_get] at h1 ⊢
    obtain ⟨hl, h1⟩ := h1
    rw [List.length_set] at hl
    refine ⟨hl, fun k hk hk' => ?_⟩
    have := h1 k hk (by rwa [List.length_set])
    simp only [List.get_eq_getElem, List.getElem_set] at this ⊢
    split at this
    · rename_i he
      subst he
      rw [List.getElem?_eq_getElem hk', Option.some.injEq] at hb
      rw [hb]
      exact this
    · exact this

theorem replaceLoop_total {possible : List Bool} {reps : List (Nat × Nat)} {bs : List (Bucket m)}
    (h : ∀ p ∈ reps, p.1 < bs.length ∧ p.2 < possible.length)
    (hl : ∀ b ∈ bs, b.possibleOps.length = possible.length) :
    ∃ bs', replaceLoop possible reps bs = .ok bs' ∧ ∀ b ∈ bs', b.possibleOps.length = possible.length := by
  induction reps generalizing bs with
  | nil => exact ⟨bs, rfl, hl⟩
  | cons p reps ih =>
    obtain ⟨i, op⟩ := p
    obtain ⟨h1, h2⟩ := h (i, op) (by simp)
    unfold replaceLoop
    rw [vget_eq bs i bs[i] h1, vget_eq possible op true h2]
    refine ih ?_ ?_
    · intro p hp
      rw [List.length_set]
      exact h p (by simp [hp])
    · intro b hb
      rcases List.mem_or_eq_of_mem_set hb with hb | rfl
      · exact hl b hb
      · simp

theorem replaceLoop_ne_fuel {possible : List Bool} {reps : List (Nat × Nat)} {bs : List (Bucket m)} :
    replaceLoop possible reps bs ≠ .error .fuel := by
  induction reps generalizing bs with
  | nil => simp [replaceLoop]
  | cons p reps ih =>
    obtain ⟨i, op⟩ := p
    intro h
    unfold replaceLoop at h
    rcases bind_fuel h with h | ⟨b, -, h⟩
    · exact vget_ne_fuel h
    rcases bind_fuel h with h | ⟨b, -, h⟩
    · exact vget_ne_fuel h
    exact ih h

theorem sameBut_work {bs bs' : List (Bucket m)} (h : List.Forall₂ SameBut bs' bs) (t : List (List Nat)) :
    work bs' t = work bs t := by
  have : bs'.map (·.bddSize) = bs.map (·.bddSize) := by
    induction h with
    | nil => rfl
    | cons h _ ih => simp [h.2.1, ih]
  unfold work
  rw [this]

/-! ## Termination -/

theorem searchLoop_ne_fuel {f : List (BDD m)} {ms : List (MetricDim m)} {ops : List (OpFun m)}
    {populate : Bool} (hop : ∀ op ∈ ops, ∀ g, op g ≠ .error .fuel)
    (hm : ∀ d ∈ ms, ∀ g, d.metric f g ≠ .error .fuel) {fuel : Nat} {bs : List (Bucket m)}
    {test : List (List Nat)} (hw : work bs test ≤ fuel) :
    searchLoop f ms ops populate fuel bs test ≠ .error .fuel := by
  induction fuel generalizing bs test with
  | zero =>
    cases test with
    | nil => simp [searchLoop]
    | cons w ws => simp [work] at hw
  | succ fuel ih =>
    cases test with
    | nil => simp [searchLoop]
    | cons w ws =>
      intro h
      unfold searchLoop at h
      dsimp only at h
      rcases bind_fuel h with h | ⟨c, -, h⟩
      · exact reduceLoop_ne_fuel _ _ _ h
      rcases bind_fuel h with h | ⟨b, -, h⟩
      · exact vget_ne_fuel h
      rcases bind_fuel h with h | ⟨s, hs, h⟩
      · exact opLoop_ne_fuel (fun op ho => hop op ho _) hm h
      rcases bind_fuel h with h | ⟨bs', hbs', h⟩
      · exact replaceLoop_ne_fuel h
      refine ih ?_ h
      have h1 := opLoop_work hs
      dsimp only at h1
      rw [sameBut_work (replaceLoop_same hbs')]
      have h2 := List.length_erase_of_mem (minElement_mem w ws)
      unfold work at h1 hw ⊢
      rw [h2] at h1
      simp only [List.length_cons] at hw h1
      omega

theorem searchLoop_succ {f : List (BDD m)} {ms : List (MetricDim m)} {ops : List (OpFun m)}
    {populate : Bool} {fuel : Nat} {bs r : List (Bucket m)} {test : List (List Nat)}
    (h : searchLoop f ms ops populate fuel bs test = .ok r) :
    searchLoop f ms ops populate (fuel + 1) bs test = .ok r := by
  induction fuel generalizing bs test with
  | zero =>
    cases test with
    | nil => simpa [searchLoop] using h
    | cons w ws => simp [searchLoop] at h
  | succ fuel ih =>
    cases test with
    | nil => simpa [searchLoop] using h
    | cons w ws =>
      rw [searchLoop] at h ⊢
      obtain ⟨c, hc, h⟩ := bind_ok h
      obtain ⟨b, hb, h⟩ := bind_ok h
      obtain ⟨s, hs, h⟩ := bind_ok h
      obtain ⟨bs', hbs', h⟩ := bind_ok h
      rw [hc]
      show (vget _ _ >>= _) = _
      rw [hb]
      show (opLoop _ _ _ _ _ _ _ _ >>= _) = _
      rw [hs]
      show (replaceLoop _ _ _ >>= _) = _
      rw [hbs']
      exact ih h

theorem searchLoop_mono {f : List (BDD m)} {ms : List (MetricDim m)} {ops : List (OpFun m)}
    {populate : Bool} {fuel fuel' : Nat} {bs r : List (Bucket m)} {test : List (List Nat)}
    (h : searchLoop f ms ops populate fuel bs test = .ok r) (hle : fuel ≤ fuel') :
    searchLoop f ms ops populate fuel' bs test = .ok r := by
  induction hle with
  | refl => exact h
  | step _ ih => exact searchLoop_succ ih

/-! ## The invariant of the search -/

/-- What holds of the bucket at position `i`. -/
structure GoodBucket (f : List (BDD m)) (ms : List (MetricDim m)) (ops : List (OpFun m)) (i : Nat)
    (b : Bucket m) : Prop where
  size : b.bddSize = nodeCount b.function
  le : b.bddSize ≤ nodeCount f
  reach : Reach ops f b.function
  empty : b.isEmpty = true → b.function = f
  full : b.isEmpty = false → b.bddSize < nodeCount f ∧
    ∃ idx, MetOk f b.function ms idx b.metricValues ∧ LeIdx idx (unrank (ms.map (·.gridSize)) i)

theorem GoodBucket.same {f : List (BDD m)} {ms : List (MetricDim m)} {ops : List (OpFun m)} {i : Nat}
    {b c : Bucket m} (h : GoodBucket f ms ops i b) (hs : SameBut c b) : GoodBucket f ms ops i c := by
  obtain ⟨h1, h2, h3, h4⟩ := hs
  exact ⟨by rw [h1, h2]; exact h.size, by rw [h2]; exact h.le, by rw [h1]; exact h.reach,
    by rw [h1, h4]; exact h.empty, by rw [h1, h2, h3, h4]; exact h.full⟩

/-- The invariant. -/
structure SearchInv (f : List (BDD m)) (ms : List (MetricDim m)) (ops : List (OpFun m))
    (populate : Bool) (bs : List (Bucket m)) : Prop where
  len : bs.length = (ms.map (·.gridSize)).prod
  good : ∀ i b, bs[i]? = some b → GoodBucket f ms ops i b
  front : populate = true → ∀ i j b c, bs[i]? = some b → bs[j]? = some c →
    LeIdx (unrank (ms.map (·.gridSize)) i) (unrank (ms.map (·.gridSize)) j) → c.bddSize ≤ b.bddSize

theorem LeIdx.trans {i j k : List Nat} (h1 : LeIdx i j) (h2 : LeIdx j k) : LeIdx i k := by
  induction h1 generalizing k with
  | nil => cases h2; exact .nil
  | cons h _ ih =>
    cases h2 with
    | cons h' h2' => exact .cons (le_trans h h') (ih h2')

theorem lt_of_getElem? {α : Type _} {l : List α} {i : Nat} {a : α} (h : l[i]? = some a) : i < l.length := by
  by_contra hc
  rw [List.getElem?_eq_none (by omega)] at h
  cases h

theorem opStep_inv {f : List (BDD m)} {ms : List (MetricDim m)} {ops : List (OpFun m)}
    {populate : Bool} {current : Nat} {bf : List (BDD m)} {op : OpFun m} {opnum : Nat}
    {s s' : SearchState m} (hpos : ∀ b ∈ ms.map (·.gridSize), b ≠ 0)
    (hprod : (ms.map (·.gridSize)).prod < 2 ^ 64) (hinv : SearchInv f ms ops populate s.buckets)
    (hbf : Reach ops f bf) (hop : op ∈ ops)
    (h : opStep f ms populate current bf op opnum s = .ok s') :
    SearchInv f ms ops populate s'.buckets := by
  rcases opStep_cases h with ⟨h1, -⟩ | ⟨g, idx, vals, start, hg, hmet, hstart, hup⟩
  · rw [h1]; exact hinv
  set grid := ms.map (·.gridSize) with hgrid
  have hbox : InBox idx grid := hmet.inBox
  have hchar := updateLoop_char hpos hup
  rw [reduceIndex_eq hbox (le_of_lt hprod)] at hstart
  cases hstart
  have hlen := (updateLoop_frame hup).1
  generalize hhi : rank grid idx + (if populate = true then s.buckets.length - rank grid idx else 1) = hi
    at hchar
  have hidxlen : ∀ i, (unrank grid i).length = idx.length := fun i => by
    rw [unrank_length]; exact (List.Forall₂.length_eq hbox).symm
  refine ⟨by rw [hlen, hinv.len], ?_, ?_⟩
  · intro i b hb
    rw [hchar i] at hb
    obtain ⟨b0, hb0, hb⟩ := Option.map_eq_some_iff.mp hb
    have h0 := hinv.good i b0 hb0
    split at hb
    · rename_i hh
      subst hb
      have hlt : nodeCount g < nodeCount f := lt_of_lt_of_le hh.2.2.1 h0.le
      exact ⟨rfl, le_of_lt hlt, .step hbf hop hg, (fun h => nomatch h), fun _ => ⟨hlt, idx, hmet,
        (belowSome_false_iff (hidxlen i)).mp hh.2.2.2⟩⟩
    · subst hb; exact h0
  · intro hpop i j b c hb hc hij
    rw [hchar i] at hb
    rw [hchar j] at hc
    obtain ⟨b0, hb0, hb⟩ := Option.map_eq_some_iff.mp hb
    obtain ⟨c0, hc0, hc⟩ := Option.map_eq_some_iff.mp hc
    have hmono := hinv.front hpop i j b0 c0 hb0 hc0 hij
    have hcle : c.bddSize ≤ c0.bddSize := by
      subst hc
      split
      · rename_i hh
        exact le_of_lt hh.2.2.1
      · exact le_rfl
    split at hb
    · rename_i hh
      have hI : LeIdx idx (unrank grid j) :=
        ((belowSome_false_iff (hidxlen i)).mp hh.2.2.2).trans hij
      have hjlt := lt_of_getElem? hc0
      have hjs : rank grid idx ≤ j := by
        have := rank_mono (bs := grid) hI
        rwa [rank_unrank (by rw [← hinv.len]; exact hjlt)] at this
      subst hb
      show c.bddSize ≤ nodeCount g
      by_cases hcs : c0.bddSize ≤ nodeCount g
      · omega
      · rw [if_pos] at hc
        · subst hc; exact le_rfl
        · refine ⟨hjs, ?_, by omega, (belowSome_false_iff (hidxlen j)).mpr hI⟩
          rw [← hhi, if_pos hpop]
          omega
    · subst hb
      omega

theorem opLoop_inv {f : List (BDD m)} {ms : List (MetricDim m)} {ops ops' : List (OpFun m)}
    {populate : Bool} {current : Nat} {bf : List (BDD m)} {opnum : Nat}
    {s s' : SearchState m} (hpos : ∀ b ∈ ms.map (·.gridSize), b ≠ 0)
    (hprod : (ms.map (·.gridSize)).prod < 2 ^ 64) (hinv : SearchInv f ms ops populate s.buckets)
    (hbf : Reach ops f bf) (hops : ∀ op ∈ ops', op ∈ ops)
    (h : opLoop f ms populate current bf ops' opnum s = .ok s') :
    SearchInv f ms ops populate s'.buckets := by
  induction ops' generalizing opnum s with
  | nil => unfold opLoop at h; cases h; exact hinv
  | cons op ops' ih =>
    unfold opLoop at h
    obtain ⟨s1, h1, h⟩ := bind_ok h
    exact ih (opStep_inv hpos hprod hinv hbf (hops op (by simp)) h1) (fun o ho => hops o (by simp [ho])) h

theorem SearchInv.same {f : List (BDD m)} {ms : List (MetricDim m)} {ops : List (OpFun m)}
    {populate : Bool} {bs bs' : List (Bucket m)} (h : SearchInv f ms ops populate bs)
    (hs : List.Forall₂ SameBut bs' bs) : SearchInv f ms ops populate bs' := by
  have key : ∀ (i : Nat) (b : Bucket m), bs'[i]? = some b → ∃ b0 : Bucket m, bs[i]? = some b0 ∧ SameBut b b0 := by
    intro i b hb
    have hi := lt_of_getElem? hb
    have hi' : i < bs.length := by rw [← hs.length_eq]; exact hi
    refine ⟨bs[i], List.getElem?_eq_getElem hi', ?_⟩
    rw [List.getElem?_eq_getElem hi, Option.some.injEq] at hb
    rw [← hb]
    exact (List.forall₂_iff_get.mp hs).2 i hi hi'
  refine ⟨by rw [hs.length_eq, h.len], fun i b hb => ?_, fun hp i j b c hb hc hij => ?_⟩
  · obtain ⟨b0, h0, hsb⟩ := key i b hb
    exact (h.good i b0 h0).same hsb
  · obtain ⟨b0, h0, hsb⟩ := key i b hb
    obtain ⟨c0, h0', hsc⟩ := key j c hc
    rw [hsb.2.1, hsc.2.1]
    exact h.front hp i j b0 c0 h0 h0' hij

theorem searchLoop_inv {f : List (BDD m)} {ms : List (MetricDim m)} {ops : List (OpFun m)}
    {populate : Bool} (hpos : ∀ b ∈ ms.map (·.gridSize), b ≠ 0)
    (hprod : (ms.map (·.gridSize)).prod < 2 ^ 64) {fuel : Nat} {bs r : List (Bucket m)}
    {test : List (List Nat)} (hinv : SearchInv f ms ops populate bs)
    (h : searchLoop f ms ops populate fuel bs test = .ok r) : SearchInv f ms ops populate r := by
  induction fuel generalizing bs test with
  | zero =>
    cases test with
    | nil => unfold searchLoop at h; cases h; exact hinv
    | cons w ws => unfold searchLoop at h; cases h
  | succ fuel ih =>
    cases test with
    | nil => unfold searchLoop at h; cases h; exact hinv
    | cons w ws =>
      unfold searchLoop at h
      dsimp only at h
      obtain ⟨c, hc, h⟩ := bind_ok h
      obtain ⟨b, hb, h⟩ := bind_ok h
      obtain ⟨s, hs, h⟩ := bind_ok h
      obtain ⟨bs', hbs', h⟩ := bind_ok h
      have hb := vget_ok_iff.mp hb
      exact ih ((opLoop_inv hpos hprod hinv (hinv.good _ _ hb).reach (fun _ h => h) hs).same
        (replaceLoop_same hbs')) h

/-! ## Defined behaviour -/

/-- What a call needs from metrics and operators: they are defined on all functions met, and the
quotient converted to `std::size_t` is in range. -/
structure SearchPre (f : List (BDD m)) (ms : List (MetricDim m)) (ops : List (OpFun m)) : Prop where
  opsOk : ∀ g, Reach ops f g → ∀ op ∈ ops, ∃ h, op g = .ok h
  metrics : ∀ g, Reach ops f g → ∀ d ∈ ms, d.bound ≠ 0 ∧ ∃ v, d.metric f g = .ok v ∧
    0 ≤ d.gridSize * v / d.bound ∧ d.gridSize * v / d.bound < 2 ^ 64

/-- The part of the state that matters for defined behaviour. -/
structure StateOk (ms : List (MetricDim m)) (n : Nat) (s : SearchState m) : Prop where
  possible : s.possible.length = n
  poss : ∀ b ∈ s.buckets, b.possibleOps.length = n
  test : ∀ v ∈ s.test, InBox v (ms.map (·.gridSize))
  replace : ∀ p ∈ s.replace, p.1 < s.buckets.length ∧ p.2 < n

theorem opStep_total {f : List (BDD m)} {ms : List (MetricDim m)} {ops : List (OpFun m)}
    {populate : Bool} {current : Nat} {bf : List (BDD m)} {op : OpFun m} {opnum : Nat}
    {s : SearchState m} (hpos : ∀ b ∈ ms.map (·.gridSize), b ≠ 0)
    (hprod : (ms.map (·.gridSize)).prod < 2 ^ 64) (hinv : SearchInv f ms ops populate s.buckets)
    (hpre : SearchPre f ms ops) (hbf : Reach ops f bf) (hop : op ∈ ops) (hopn : opnum < ops.length)
    (hcur : current < s.buckets.length) (hs : StateOk ms ops.length s) :
    ∃ s', opStep f ms populate current bf op opnum s = .ok s' ∧ StateOk ms ops.length s' ∧
      s'.buckets.length = s.buckets.length := by
  have hex : ∃ s', opStep f ms populate current bf op opnum s = .ok s' := by
    unfold opStep
    rw [vget_eq s.possible opnum true (by rw [hs.possible]; exact hopn)]
    show ∃ s', ite (_ = true) _ _ = _
    split
    · obtain ⟨g, hg⟩ := hpre.opsOk bf hbf op hop
      rw [hg]
      show ∃ s', (vget s.buckets current >>= _) = _
      rw [vget_eq s.buckets current s.buckets[current] hcur]
      show ∃ s', (if _ ≤ nodeCount g then _ else _) = _
      split
      · exact ⟨_, rfl⟩
      · obtain ⟨r, hr⟩ := metricLoop_total (f := f) (g := g) (bs := s.buckets) (nodes := nodeCount g)
          (ms := ms) (ds := ms) (done := []) (idx := []) (vals := []) rfl .nil
          (fun d hd => hpos _ (List.mem_map_of_mem hd)) hprod hinv.len
          (fun d hd => hpre.metrics g (.step hbf hop hg) d hd)
        rw [hr]
        cases r with
        | notBetter => exact ⟨_, rfl⟩
        | exceeded => exact ⟨_, rfl⟩
        | better idx vals =>
          obtain ⟨I, V, h1, h2, h3⟩ := metricLoop_better hr
          rw [List.nil_append] at h1 h2
          subst h1 h2
          show ∃ s', (reduceIndex _ _ >>= _) = _
          rw [reduceIndex_eq h3.inBox (le_of_lt hprod)]
          have hlt := rank_lt h3.inBox
          rw [← hinv.len] at hlt
          refine updateLoop_total hpos ?_
          split <;> omega
    · exact ⟨_, rfl⟩
  obtain ⟨s', h⟩ := hex
  refine ⟨s', h, ?_⟩
  rcases opStep_cases h with ⟨h1, h2, h3, h4⟩ | ⟨g, idx, vals, start, -, -, -, hup⟩
  · refine ⟨⟨by rw [h4, hs.possible], by rw [h1]; exact hs.poss, by rw [h2]; exact hs.test, ?_⟩,
      by rw [h1]⟩
    rw [h1, h3]
    exact hs.replace
  · obtain ⟨h1, h2, h3, h4⟩ := updateLoop_frame hup
    have hchar := updateLoop_char hpos hup
    refine ⟨⟨by rw [h2, hs.possible], ?_, ?_, ?_⟩, h1⟩
    · intro b hb
      obtain ⟨i, hi⟩ := List.mem_iff_getElem?.mp hb
      rw [hchar i] at hi
      obtain ⟨b0, hb0, hi⟩ := Option.map_eq_some_iff.mp hi
      have := hs.poss b0 (List.mem_of_getElem? hb0)
      subst hi
      by_cases hh : hits (ms.map (·.gridSize)) idx (nodeCount g) start
          (start + (if populate = true then s.buckets.length - start else 1)) i b0
      · rw [if_pos hh]; exact this
      · rw [if_neg hh]; exact this
    · intro v hv
      rcases h3 v hv with hv | ⟨k, -, hk⟩
      · exact hs.test v hv
      · rw [createIndex_eq hpos] at hk
        cases hk
        exact unrank_inBox hpos k
    · intro p hp
      rw [h1]
      rcases h4 p hp with hp | ⟨hp1, hp2⟩
      · exact hs.replace p hp
      · exact ⟨hp1, by omega⟩

theorem opLoop_total {f : List (BDD m)} {ms : List (MetricDim m)} {ops ops' : List (OpFun m)}
    {populate : Bool} {current : Nat} {bf : List (BDD m)} {opnum : Nat}
    {s : SearchState m} (hpos : ∀ b ∈ ms.map (·.gridSize), b ≠ 0)
    (hprod : (ms.map (·.gridSize)).prod < 2 ^ 64) (hinv : SearchInv f ms ops populate s.buckets)
    (hpre : SearchPre f ms ops) (hbf : Reach ops f bf) (hops : ∀ op ∈ ops', op ∈ ops)
    (hopn : opnum + ops'.length = ops.length)
    (hcur : current < s.buckets.length) (hs : StateOk ms ops.length s) :
    ∃ s', opLoop f ms populate current bf ops' opnum s = .ok s' ∧ StateOk ms ops.length s' := by
  induction ops' generalizing opnum s with
  | nil => exact ⟨s, rfl, hs⟩
  | cons op ops' ih =>
    rw [List.length_cons] at hopn
    obtain ⟨s1, h1, hs1, hl1⟩ := opStep_total hpos hprod hinv hpre hbf (hops op (by simp))
      (show opnum < ops.length by omega) hcur hs
    obtain ⟨s2, h2, hs2⟩ := ih (opnum := opnum + 1)
      (opStep_inv hpos hprod hinv hbf (hops op (by simp)) h1) (fun o ho => hops o (by simp [ho]))
      (by omega) (by omega) hs1
    refine ⟨s2, ?_, hs2⟩
    unfold opLoop
    rw [h1]
    exact h2

theorem searchLoop_total {f : List (BDD m)} {ms : List (MetricDim m)} {ops : List (OpFun m)}
    {populate : Bool} (hpos : ∀ b ∈ ms.map (·.gridSize), b ≠ 0)
    (hprod : (ms.map (·.gridSize)).prod < 2 ^ 64) (hpre : SearchPre f ms ops) {fuel : Nat}
    {bs : List (Bucket m)} {test : List (List Nat)} (hinv : SearchInv f ms ops populate bs)
    (hposs : ∀ b ∈ bs, b.possibleOps.length = ops.length)
    (htest : ∀ v ∈ test, InBox v (ms.map (·.gridSize))) (hw : work bs test ≤ fuel) :
    ∃ r, searchLoop f ms ops populate fuel bs test = .ok r := by
  induction fuel generalizing bs test with
  | zero =>
    cases test with
    | nil => exact ⟨bs, rfl⟩
    | cons w ws => simp [work] at hw
  | succ fuel ih =>
    cases test with
    | nil => exact ⟨bs, rfl⟩
    | cons w ws =>
      have hmem := minElement_mem w ws
      have hbox := htest _ hmem
      have hcur := rank_lt hbox
      rw [← hinv.len] at hcur
      have hb : bs[rank (ms.map (·.gridSize)) (minElement w ws)]? = some _ := List.getElem?_eq_getElem hcur
      obtain ⟨s, h1, hs⟩ := opLoop_total (populate := populate) (s := ⟨bs, (w :: ws).erase (minElement w ws),
          bs[rank (ms.map (·.gridSize)) (minElement w ws)].possibleOps, []⟩) (opnum := 0)
        hpos hprod hinv hpre (hinv.good _ _ hb).reach (fun _ h => h) (by omega) hcur
        ⟨hposs _ (List.getElem_mem _), hposs, fun v hv => htest v (List.mem_of_mem_erase hv), by simp⟩
      have hinv' := opLoop_inv hpos hprod hinv (hinv.good _ _ hb).reach (fun _ h => h) h1
      obtain ⟨bs', h2, hposs'⟩ := replaceLoop_total (possible := s.possible) (reps := s.replace)
        (bs := s.buckets) (by rw [hs.possible]; exact hs.replace) (by rw [hs.possible]; exact hs.poss)
      rw [hs.possible] at hposs'
      obtain ⟨r, hr⟩ := ih (hinv'.same (replaceLoop_same h2)) hposs' hs.test (by
        have h3 := opLoop_work h1
        rw [sameBut_work (replaceLoop_same h2)]
        have h4 := List.length_erase_of_mem hmem
        unfold work at h3 hw ⊢
        rw [h4] at h3
        simp only [List.length_cons] at hw h3
        omega)
      refine ⟨r, ?_⟩
      unfold searchLoop
      dsimp only
      rw [reduceIndex_eq hbox (le_of_lt hprod)]
      show (vget _ _ >>= _) = _
      rw [vget_ok_iff.mpr hb]
      show (opLoop _ _ _ _ _ _ _ _ >>= _) = _
      rw [h1]
      show (replaceLoop _ _ _ >>= _) = _
      rw [h2]
      exact hr

/-! ## The whole function -/

theorem initial_inv {f : List (BDD m)} {ms : List (MetricDim m)} {ops : List (OpFun m)}
    {populate : Bool} (hpos : ∀ b ∈ ms.map (·.gridSize), b ≠ 0)
    (hprod : (ms.map (·.gridSize)).prod < 2 ^ 64) :
    SearchInv f ms ops populate (List.replicate (totalBuckets (ms.map (·.gridSize)))
      (⟨f, nodeCount f, List.replicate ms.length 0, List.replicate ops.length true, true⟩ : Bucket m)) := by
  have key : ∀ (n i : Nat) (b c : Bucket m), (List.replicate n c)[i]? = some b → b = c := by
    intro n i b c h
    exact List.eq_of_mem_replicate (List.mem_of_getElem? h)
  refine ⟨by rw [List.length_replicate, totalBuckets_eq hprod hpos], fun i b hb => ?_,
    fun _ i j b c hb hc _ => ?_⟩
  · rw [key _ _ _ _ hb]
    exact ⟨rfl, le_rfl, .refl, fun _ => rfl, fun h => nomatch h⟩
  · rw [key _ _ _ _ hb, key _ _ _ _ hc]

theorem bucketGreedyMinimize_inv {fuel : Nat} {f : List (BDD m)} {ms : List (MetricDim m)}
    {ops : List (OpFun m)} {populate : Bool} {r : List (Bucket m)}
    (hprod : (ms.map (·.gridSize)).prod < 2 ^ 64)
    (h : bucketGreedyMinimize fuel f ms ops populate = .ok r) :
    SearchInv f ms ops populate r ∧ ∀ b ∈ ms.map (·.gridSize), b ≠ 0 := by
  unfold bucketGreedyMinimize at h
  split at h
  · cases h
  · dsimp only at h
    obtain ⟨first, hf, h⟩ := bind_ok h
    have hpos := createIndex_ok_pos hf
    exact ⟨searchLoop_inv hpos hprod (initial_inv hpos hprod) h, hpos⟩

theorem MetOk.values_length {f g : List (BDD m)} {ds idx vs} (h : MetOk f g ds idx vs) :
    vs.length = ds.length := by
  induction h with
  | nil => rfl
  | cons _ _ _ _ _ ih => simp [ih]

theorem MetOk.get {f g : List (BDD m)} {ds idx vs} (h : MetOk f g ds idx vs) {pos : List Nat}
    (hle : LeIdx idx pos) {k : Nat} {d : MetricDim m} {i : Nat} {v : ℚ} (hd : ds[k]? = some d)
    (hi : pos[k]? = some i) (hv : vs[k]? = some v) (hb : 0 < d.bound) :
    d.metric f g = .ok v ∧ v < d.bound * (i + 1) / d.gridSize := by
  induction h generalizing pos k with
  | nil => simp at hd
  | cons h1 h2 h3 h4 h5 ih =>
    rename_i d' ds k' idx v' vs
    cases hle with
    | cons hle1 hle2 =>
      rename_i p pos
      cases k with
      | zero =>
        simp only [List.getElem?_cons_zero, Option.some.injEq] at hd hi hv
        subst hd hi hv
        refine ⟨h1, ?_⟩
        have h6 := toSizeT_le h3
        have hg : (0 : ℚ) < d'.gridSize := by exact_mod_cast (show 0 < d'.gridSize by omega)
        rw [lt_div_iff₀ hg]
        rw [div_lt_iff₀ hb] at h6
        have h7 : ((k' : ℚ) + 1) * d'.bound ≤ (p + 1) * d'.bound := by
          apply mul_le_mul_of_nonneg_right _ (le_of_lt hb)
          have : (k' : ℚ) ≤ p := by exact_mod_cast hle1
          linarith
        linarith
      | succ k =>
        rw [List.getElem?_cons_succ] at hd hi hv
        exact ih hle2 hd hi hv

theorem foldl_uszt_le (grid : List Nat) (a c : Nat) (h : a ≤ c) :
    grid.foldl (fun a b => uszt (a * b)) a ≤ c * grid.prod := by
  induction grid generalizing a c with
  | nil => simpa using h
  | cons b bs ih =>
    rw [List.foldl_cons, List.prod_cons, ← mul_assoc]
    exact ih _ _ (le_trans (Nat.mod_le _ _) (Nat.mul_le_mul_right _ h))

theorem totalBuckets_le (grid : List Nat) : totalBuckets grid ≤ grid.prod := by
  have := foldl_uszt_le grid 1 1 le_rfl
  rwa [one_mul] at this

theorem initial_work {n k : Nat} {b : Bucket m} (h : n ≤ k) (v : List Nat) :
    work (List.replicate n b) (setInsert v []) ≤ k * b.bddSize + 1 := by
  unfold work
  have : (setInsert v []).length = 1 := rfl
  rw [this, List.map_replicate, List.sum_replicate, nsmul_eq_mul, Nat.cast_id]
  have := Nat.mul_le_mul_right b.bddSize h
  omega

/-! ## Generated operators -/

theorem cofactorRec_eval (v : Nat) (val : Bool) (d : DD) (h : d.WF m) (neg : Bool) (x : Asg) :
    (cofactorRec v val d h neg).eval x = (neg ^^ d.eval (Function.update x v val)) := by
  induction d generalizing neg with
  | one => rfl
  | node w t c e iht ihe =>
    unfold cofactorRec
    obtain ⟨h1, h2, h3, h4, -⟩ := id h
    by_cases hw : w = v
    · subst hw
      rw [if_pos rfl]
      cases val
      · rw [if_neg (by simp)]
        show ((neg ^^ c) ^^ e.eval x) = _
        simp only [DD.eval, Function.update_self]
        rw [DD.eval_update_of_notMem (h4.notMem h2)]
        simp
      · rw [if_pos rfl]
        show (neg ^^ t.eval x) = _
        simp only [DD.eval, Function.update_self]
        rw [DD.eval_update_of_notMem (h3.notMem h1)]
        simp
    · rw [if_neg hw, BDD.eval_ite, BDD.eval_var, iht, ihe]
      simp only [DD.eval]
      rw [Function.update_of_ne hw]
      cases x w <;> simp

theorem cofactor_eval (f : BDD m) (v : Nat) (val : Bool) (x : Asg) :
    (cofactor f v val).eval x = f.eval (Function.update x v val) :=
  cofactorRec_eval v val f.edge.n f.wf f.edge.neg x

theorem applyOperator_total (b : BDD m) (op : Operator) (ls le : Nat) :
    ∃ r, applyOperator b op ls le = .ok r := by
  cases op with
  | positiveCofactor => exact ⟨_, rfl⟩
  | negativeCofactor => exact ⟨_, rfl⟩
  | subsetLight => exact let ⟨r, h, _⟩ := roundAny_spec b ls le false true; ⟨r, h⟩
  | subsetHeavy => exact let ⟨r, h, _⟩ := roundAny_spec b ls le true true; ⟨r, h⟩
  | supersetLight => exact let ⟨r, h, _⟩ := roundAny_spec b ls le false false; ⟨r, h⟩
  | supersetHeavy => exact let ⟨r, h, _⟩ := roundAny_spec b ls le true false; ⟨r, h⟩
  | roundBest => exact let ⟨r, h, _⟩ := roundBest_spec b ls le; ⟨r, h⟩
  | round => exact let ⟨r, h, _⟩ := roundBdd_spec b ls; ⟨r, h⟩

theorem applyOperatorAll_spec (op : Operator) (ls le : Nat) (f : List (BDD m)) :
    ∃ g, applyOperatorAll op ls le f = .ok g ∧
      List.Forall₂ (fun b b' => applyOperator b op ls le = .ok b') f g := by
  induction f with
  | nil => exact ⟨[], rfl, .nil⟩
  | cons b bs ih =>
    obtain ⟨g, hg, h⟩ := ih
    obtain ⟨b', hb⟩ := applyOperator_total b op ls le
    refine ⟨b' :: g, ?_, .cons hb h⟩
    unfold applyOperatorAll
    rw [hb, hg]
    rfl

theorem applyOperatorAt_spec {i : Nat} (j : Nat) (op : Operator) {f : List (BDD m)} {b : BDD m}
    (h : f[i]? = some b) :
    ∃ b', applyOperator b op j j = .ok b' ∧ applyOperatorAt i j op f = .ok (f.set i b') := by
  obtain ⟨b', hb⟩ := applyOperator_total b op j j
  refine ⟨b', hb, ?_⟩
  unfold applyOperatorAt
  rw [vget_ok_iff.mpr h]
  show (applyOperator _ _ _ _ >>= _) = _
  rw [hb]
  rfl

/-- Entry of a list of equally long rows. -/
theorem flatMap_range_getElem? {α : Type _} (n c : Nat) (g : Nat → List α) (hg : ∀ i, (g i).length = c)
    {i j : Nat} (hi : i < n) (hj : j < c) :
    ((List.range n).flatMap g)[i * c + j]? = (g i)[j]? := by
  induction n generalizing i with
  | zero => omega
  | succ n ih =>
    have hl : ((List.range n).flatMap g).length = n * c := by
      rw [List.length_flatMap, List.map_congr_left (g := fun _ => c) (fun a _ => hg a)]
      simp
    rw [List.range_succ, List.flatMap_append, List.flatMap_singleton]
    by_cases h : i < n
    · have hlt : i * c + j < n * c := by
        calc i * c + j < i * c + c := by omega
          _ = (i + 1) * c := by ring
          _ ≤ n * c := Nat.mul_le_mul_right _ h
      rw [List.getElem?_append_left (by rw [hl]; exact hlt)]
      exact ih h
    · have : i = n := by omega
      subst this
      rw [List.getElem?_append_right (by rw [hl]; omega), hl]
      congr 1
      omega

theorem length_flatMap_range {α : Type _} (n c : Nat) (g : Nat → List α) (hg : ∀ i, (g i).length = c) :
    ((List.range n).flatMap g).length = n * c := by
  rw [List.length_flatMap, List.map_congr_left (g := fun _ => c) (fun a _ => hg a)]
  simp

end Verif

import Verif.Proofs.Bucket
import Mathlib.Data.List.Lex

/-!
# Lemmas for C80: the operators a bucket may still use
-/

namespace Verif

variable {m : Mgr}

/-- The last operator recorded for position `i`. -/
def lastRep (reps : List (Nat × Nat)) (i : Nat) : Option Nat := (reps.reverse.find? (·.1 == i)).map (·.2)

theorem lastRep_nil (i : Nat) : lastRep [] i = none := rfl

theorem lastRep_append (reps : List (Nat × Nat)) (j o i : Nat) :
    lastRep (reps ++ [(j, o)]) i = if j = i then some o else lastRep reps i := by
  unfold lastRep
  rw [List.reverse_append]
  simp only [List.reverse_cons, List.reverse_nil, List.nil_append, List.cons_append, List.find?_cons]
  by_cases h : j = i
  · simp [h]
  · rw [beq_false_of_ne h, if_neg h]

theorem lastRep_cons (reps : List (Nat × Nat)) (j o i : Nat) :
    lastRep ((j, o) :: reps) i = (lastRep reps i).or (if j = i then some o else none) := by
  unfold lastRep
  simp only [List.reverse_cons, List.find?_append, List.find?_cons, List.find?_nil]
  cases h : List.find? (fun x => x.1 == i) reps.reverse with
  | none =>
    by_cases hj : j = i
    · simp [hj]
    · rw [beq_false_of_ne hj, if_neg hj]
      rfl
  | some p => simp

def replaced (possible : List Bool) (o : Option Nat) (b : Bucket m) : Bucket m :=
  match o with
  | none => b
  | some o => { b with possibleOps := possible.set o false }

theorem replaceLoop_char {possible : List Bool} {reps : List (Nat × Nat)} {bs bs' : List (Bucket m)}
    (h : replaceLoop possible reps bs = .ok bs') (i : Nat) :
    bs'[i]? = (bs[i]?).map (replaced possible (lastRep reps i)) := by
  induction reps generalizing bs with
  | nil => unfold replaceLoop at h; cases h; rw [lastRep_nil]; cases bs'[i]? <;> rfl
  | cons p reps ih =>
    obtain ⟨j, o⟩ := p
    unfold replaceLoop at h
    obtain ⟨b, hb, h⟩ := bind_ok h
    obtain ⟨_, -, h⟩ := bind_ok h
    rw [ih h, lastRep_cons, List.getElem?_set]
    have hb := vget_ok_iff.mp hb
    by_cases hj : j = i
    · subst hj
      rw [if_pos rfl, if_pos (lt_of_getElem? hb), if_pos rfl, hb]
      cases lastRep reps j <;> rfl
    · rw [if_neg hj, if_neg hj]
      cases lastRep reps i <;> rfl

theorem updateLoop_trail {grid newIdx : List Nat} {modified : List (BDD m)}
    {nodes : Nat} {vals : List ℚ} {opnum n i : Nat} {s s' : SearchState m}
    (h : updateLoop grid newIdx modified nodes vals opnum n i s = .ok s') (k : Nat) :
    (s'.buckets[k]? = s.buckets[k]? ∧ lastRep s'.replace k = lastRep s.replace k) ∨
    ∃ b, s.buckets[k]? = some b ∧ nodes < b.bddSize ∧
      s'.buckets[k]? = some (written modified nodes vals b) ∧ lastRep s'.replace k = some opnum := by
  induction n generalizing i s with
  | zero => unfold updateLoop at h; cases h; exact .inl ⟨rfl, rfl⟩
  | succ n ih =>
    unfold updateLoop at h
    obtain ⟨b, hb, h⟩ := bind_ok h
    split at h
    · exact ih h
    · rename_i hlt
      obtain ⟨index, hi, h⟩ := bind_ok h
      split at h
      · exact ih h
      · have hb := vget_ok_iff.mp hb
        have := ih h
        dsimp only at this
        rw [List.getElem?_set, lastRep_append] at this
        by_cases hk : i = k
        · subst hk
          rw [if_pos rfl, if_pos (lt_of_getElem? hb), if_pos rfl] at this
          rcases this with h1 | ⟨c, h1, h2, -⟩
          · exact .inr ⟨b, hb, Nat.lt_of_not_le hlt, h1.1, h1.2⟩
          · cases h1
            simp at h2
        · rwa [if_neg hk, if_neg hk] at this

/-- Some error of `h` is not below its bound. -/
def overAny (f : List (BDD m)) (ms : List (MetricDim m)) (h : List (BDD m)) : Prop :=
  ∃ d ∈ ms, ∃ v, d.metric f h = .ok v ∧ d.bound ≤ v

/-- The first error of `h` is not below its bound. -/
def overFirst (f : List (BDD m)) (ms : List (MetricDim m)) (h : List (BDD m)) : Prop :=
  ∃ d ∈ ms.head?, ∃ v, d.metric f h = .ok v ∧ d.bound ≤ v

theorem convertible_ok {x : Except Fault ℚ} {v : ℚ} (h : convertible x = .ok v) : x = .ok v := by
  unfold convertible at h
  split at h
  · cases h
  · exact h

theorem convertible_of_ok {v : ℚ} : convertible (.ok v) = .ok v := rfl

theorem metricLoop_exceeded {grid : List Nat} {f g : List (BDD m)} {bs : List (Bucket m)} {nodes : Nat}
    {ds : List (MetricDim m)} (hd : ∀ d ∈ ds, 0 < d.bound ∧ d.gridSize ≠ 0) {idx : List Nat} {vals : List ℚ}
    (h : metricLoop grid f g bs nodes ds idx vals = .ok .exceeded) : overAny f ds g := by
  induction ds generalizing idx vals with
  | nil => simp [metricLoop] at h
  | cons d ds ih =>
    unfold metricLoop at h
    obtain ⟨v, hv, h⟩ := bind_ok h
    split at h
    · cases h
    obtain ⟨k, hk, h⟩ := bind_ok h
    have hv := convertible_ok hv
    split at h
    · rename_i hle
      refine ⟨d, by simp, v, hv, ?_⟩
      obtain ⟨hb, hg⟩ := hd d (by simp)
      unfold toSizeT at hk
      split at hk
      · cases hk
      · cases hk
        have hg' : (0 : ℚ) < d.gridSize := by exact_mod_cast Nat.pos_of_ne_zero hg
        have h1 : (d.gridSize : ℤ) ≤ ⌊(d.gridSize : ℚ) * v / d.bound⌋ := by omega
        have h2 := Int.le_floor.mp h1
        rw [le_div_iff₀ hb] at h2
        exact le_of_mul_le_mul_left (by exact_mod_cast h2) hg'
    · obtain ⟨p, hp, h⟩ := bind_ok h
      obtain ⟨b, hb, h⟩ := bind_ok h
      split at h
      · cases h
      · obtain ⟨d', h1, h2⟩ := ih (fun d hd' => hd d (by simp [hd'])) h
        exact ⟨d', by simp [h1], h2⟩

theorem metricLoop_first {grid : List Nat} {f g : List (BDD m)} {bs : List (Bucket m)} {nodes : Nat}
    {ds : List (MetricDim m)} (hd : ∀ d ∈ ds, 0 < d.bound ∧ d.gridSize ≠ 0) {idx : List Nat} {vals : List ℚ}
    {r : MetricResult} (h : metricLoop grid f g bs nodes ds idx vals = .ok r) (ho : overFirst f ds g) :
    r = .exceeded := by
  cases ds with
  | nil => obtain ⟨d, h1, -⟩ := ho; cases h1
  | cons d ds =>
    obtain ⟨d', h1, v, hv, hle⟩ := ho
    cases h1
    unfold metricLoop at h
    rw [hv, convertible_of_ok] at h
    obtain ⟨hb, hg⟩ := hd d (by simp)
    change (if d.bound = 0 then _ else _) = _ at h
    rw [if_neg hb.ne'] at h
    obtain ⟨k, hk, h⟩ := bind_ok h
    have hle : d.gridSize ≤ k := by
      unfold toSizeT at hk
      split at hk
      · cases hk
      · cases hk
        have hg' : (0 : ℚ) < d.gridSize := by exact_mod_cast Nat.pos_of_ne_zero hg
        have : (d.gridSize : ℤ) ≤ ⌊(d.gridSize : ℚ) * v / d.bound⌋ := by
          rw [Int.le_floor, le_div_iff₀ hb]
          push_cast
          exact mul_le_mul_of_nonneg_left hle hg'.le
        omega
    rw [if_pos hle] at h
    cases h
    rfl

/-- The state of the operator loop before operator `n`, where `fl` are the flags of the bucket worked
on, `g` its function and `bs0` the buckets before the loop. -/
structure OpLoopInv (f : List (BDD m)) (ms : List (MetricDim m)) (ops : List (OpFun m)) (fl : List Bool)
    (g : List (BDD m)) (bs0 : List (Bucket m)) (n : Nat) (s : SearchState m) : Prop where
  len : s.possible.length = fl.length
  later : ∀ i, n ≤ i → s.possible[i]? = fl[i]?
  off : ∀ i, s.possible[i]? = some false → fl[i]? = some false ∨ MayDrop nodeCount (overAny f ms) ops g i
  on : ∀ i, s.possible[i]? = some true → fl[i]? = some true ∧
    (i < n → ¬ MustDrop nodeCount (overFirst f ms) ops g i)
  kept : ∀ i, lastRep s.replace i = none → s.buckets[i]? = bs0[i]?
  new : ∀ i o, lastRep s.replace i = some o → o < n ∧ fl[o]? = some true ∧ ∃ b op, s.buckets[i]? = some b ∧
    ops[o]? = some op ∧ op g = .ok b.function ∧ b.bddSize = nodeCount b.function ∧ b.bddSize < nodeCount g ∧
    b.isEmpty = false

theorem OpLoopInv.current {f : List (BDD m)} {ms : List (MetricDim m)} {ops : List (OpFun m)} {fl : List Bool}
    {g : List (BDD m)} {bs0 : List (Bucket m)} {n : Nat} {s : SearchState m}
    (h : OpLoopInv f ms ops fl g bs0 n s) {current : Nat} {b0 b : Bucket m} (h0 : bs0[current]? = some b0)
    (hs : b0.bddSize = nodeCount g) (hb : s.buckets[current]? = some b) :
    ∃ t, Tried ops g n t ∧ b.bddSize = nodeCount t ∧ b.bddSize ≤ nodeCount g := by
  cases hr : lastRep s.replace current with
  | none =>
    rw [h.kept _ hr, h0] at hb
    cases hb
    exact ⟨g, .inl rfl, hs, hs.le⟩
  | some o =>
    obtain ⟨h1, -, b', op, h2, h3, h4, h5, h6, -⟩ := h.new _ _ hr
    rw [h2] at hb
    cases hb
    exact ⟨_, .inr ⟨o, h1, op, h3, h4⟩, h5, h6.le⟩

theorem OpLoopInv.keep {f : List (BDD m)} {ms : List (MetricDim m)} {ops : List (OpFun m)} {fl : List Bool}
    {g : List (BDD m)} {bs0 : List (Bucket m)} {n : Nat} {s : SearchState m}
    (h : OpLoopInv f ms ops fl g bs0 n s)
    (hn : s.possible[n]? = some true → ¬ MustDrop nodeCount (overFirst f ms) ops g n) :
    OpLoopInv f ms ops fl g bs0 (n + 1) s where
  len := h.len
  later i hi := h.later i (by omega)
  off := h.off
  on i hi := ⟨(h.on i hi).1, fun hlt => by
    rcases Nat.lt_succ_iff_lt_or_eq.mp hlt with hlt | rfl
    · exact (h.on i hi).2 hlt
    · exact hn hi⟩
  kept := h.kept
  new i o hi := by
    obtain ⟨h1, h2⟩ := h.new i o hi
    exact ⟨by omega, h2⟩

theorem OpLoopInv.drop {f : List (BDD m)} {ms : List (MetricDim m)} {ops : List (OpFun m)} {fl : List Bool}
    {g : List (BDD m)} {bs0 : List (Bucket m)} {n : Nat} {s : SearchState m}
    (h : OpLoopInv f ms ops fl g bs0 n s) (hn : MayDrop nodeCount (overAny f ms) ops g n) :
    OpLoopInv f ms ops fl g bs0 (n + 1) { s with possible := s.possible.set n false } where
  len := by simpa using h.len
  later i hi := by
    dsimp only
    rw [List.getElem?_set_ne (by omega)]
    exact h.later i (by omega)
  off i hi := by
    dsimp only at hi
    by_cases hin : n = i
    · exact .inr (hin ▸ hn)
    · rw [List.getElem?_set_ne hin] at hi
      exact h.off i hi
  on i hi := by
    dsimp only at hi
    by_cases hin : n = i
    · subst hin
      rw [List.getElem?_set] at hi
      split at hi <;> simp_all
    · rw [List.getElem?_set_ne hin] at hi
      exact ⟨(h.on i hi).1, fun hlt => (h.on i hi).2 (by omega)⟩
  kept := h.kept
  new i o hi := by
    obtain ⟨h1, h2⟩ := h.new i o hi
    exact ⟨by omega, h2⟩

theorem opStep_trail {f : List (BDD m)} {ms : List (MetricDim m)} {ops : List (OpFun m)}
    (hd : ∀ d ∈ ms, 0 < d.bound ∧ d.gridSize ≠ 0) {populate : Bool}
    {fl : List Bool} {g : List (BDD m)} {bs0 : List (Bucket m)} {n current : Nat} {s s' : SearchState m}
    {b0 : Bucket m} (h0 : bs0[current]? = some b0) (hs : b0.bddSize = nodeCount g) {op : OpFun m}
    (hop : ops[n]? = some op) (hinv : OpLoopInv f ms ops fl g bs0 n s)
    (h : opStep f ms populate current g op n s = .ok s') : OpLoopInv f ms ops fl g bs0 (n + 1) s' := by
  unfold opStep at h
  obtain ⟨flag, hflag, h⟩ := bind_ok h
  have hflag := vget_ok_iff.mp hflag
  split at h
  · rename_i hfl
    rw [hfl] at hflag
    obtain ⟨g', hg, h⟩ := bind_ok h
    obtain ⟨cur, hcur, h⟩ := bind_ok h
    obtain ⟨t, ht1, ht2, ht3⟩ := hinv.current h0 hs (vget_ok_iff.mp hcur)
    split at h
    · rename_i hge
      split at h
      · rename_i hbig
        cases h
        exact hinv.drop ⟨op, g', hop, hg, .inr ⟨t, ht1, by rw [← ht2]; exact hbig⟩⟩
      · rename_i hbig
        cases h
        refine hinv.keep (fun _ hm => ?_)
        obtain ⟨op', h', h1, h2, h3⟩ := hm
        rw [hop] at h1
        cases h1
        rw [hg] at h2
        cases h2
        rcases h3 with h3 | ⟨-, h3⟩
        · have : cur.bddSize * 3 / 2 ≤ nodeCount g * 3 / 2 := Nat.div_le_div_right (by omega)
          omega
        · have := h3 t ht1
          omega
    · rename_i hlt
      obtain ⟨r, hr, h⟩ := bind_ok h
      have hkeep : r ≠ .exceeded → ¬ MustDrop nodeCount (overFirst f ms) ops g n := by
        rintro hne ⟨op', h', h1, h2, h3⟩
        rw [hop] at h1
        cases h1
        rw [hg] at h2
        cases h2
        rcases h3 with h3 | ⟨h3, -⟩
        · have : nodeCount g ≤ nodeCount g * 3 / 2 := by omega
          omega
        · exact hne (metricLoop_first hd hr h3)
      cases r with
      | notBetter => cases h; exact hinv.keep (fun _ => hkeep (by simp))
      | exceeded =>
        cases h
        exact hinv.drop ⟨op, g', hop, hg, .inl (metricLoop_exceeded hd hr)⟩
      | better idx vals =>
        obtain ⟨start, -, h⟩ := bind_ok h
        have hk := hinv.keep (fun _ => hkeep (by simp))
        have hp := (updateLoop_frame h).2.1
        refine ⟨by rw [hp]; exact hk.len, by rw [hp]; exact hk.later, by rw [hp]; exact hk.off,
          by rw [hp]; exact hk.on, fun i hi => ?_, fun i o hi => ?_⟩
        · rcases updateLoop_trail h i with ⟨h1, h2⟩ | ⟨b, -, -, -, h2⟩
          · rw [h1]
            exact hk.kept i (by rw [← h2]; exact hi)
          · rw [h2] at hi
            cases hi
        · rcases updateLoop_trail h i with ⟨h1, h2⟩ | ⟨b, h1, h3, h4, h2⟩
          · rw [h1]
            exact hk.new i o (by rw [← h2]; exact hi)
          · rw [h2] at hi
            cases hi
            exact ⟨by omega, (hinv.on _ hflag).1, _, op, h4, hop, hg, rfl,
              by show nodeCount g' < _; omega, rfl⟩
  · rename_i hfl
    cases h
    refine hinv.keep (fun ht => ?_)
    rw [ht] at hflag
    cases hflag
    exact absurd rfl hfl

theorem opLoop_trail {f : List (BDD m)} {ms : List (MetricDim m)} {ops ops' : List (OpFun m)}
    (hd : ∀ d ∈ ms, 0 < d.bound ∧ d.gridSize ≠ 0) {populate : Bool}
    {fl : List Bool} {g : List (BDD m)} {bs0 : List (Bucket m)} {n current : Nat} {s s' : SearchState m}
    {b0 : Bucket m} (h0 : bs0[current]? = some b0) (hs : b0.bddSize = nodeCount g)
    (hops : ops.drop n = ops') (hinv : OpLoopInv f ms ops fl g bs0 n s)
    (h : opLoop f ms populate current g ops' n s = .ok s') :
    OpLoopInv f ms ops fl g bs0 (n + ops'.length) s' := by
  induction ops' generalizing n s with
  | nil => unfold opLoop at h; cases h; exact hinv
  | cons op ops' ih =>
    unfold opLoop at h
    obtain ⟨s1, h1, h⟩ := bind_ok h
    have hop : ops[n]? = some op := by
      have := congrArg (·[0]?) hops
      simpa using this
    have := ih (n := n + 1) (by rw [← List.drop_drop, hops]; rfl)
      (opStep_trail hd h0 hs hop hinv h1) h
    rw [List.length_cons]
    convert this using 1
    omega

/-- What holds of the flags of each bucket. -/
structure FlagsOk (f : List (BDD m)) (ms : List (MetricDim m)) (ops : List (OpFun m)) (w : List (Nat × List (BDD m)))
    (b : Bucket m) : Prop where
  size : b.bddSize = nodeCount b.function
  way : Way nodeCount ops f w b.function
  nodup : (w.map (·.1)).Nodup
  len : b.possibleOps.length = ops.length
  off : ∀ o, b.possibleOps[o]? = some false → o ∈ w.map (·.1) ∨
    ∃ p ∈ w, MayDrop nodeCount (overAny f ms) ops p.2 o
  on : ∀ o, b.possibleOps[o]? = some true → o ∉ w.map (·.1) ∧
    ∀ p ∈ w, ¬ MustDrop nodeCount (overFirst f ms) ops p.2 o
  empty : b.isEmpty = true → w = []

theorem searchLoop_trail {f : List (BDD m)} {ms : List (MetricDim m)} {ops : List (OpFun m)}
    (hd : ∀ d ∈ ms, 0 < d.bound ∧ d.gridSize ≠ 0) {populate : Bool} {fuel : Nat} {bs r : List (Bucket m)}
    {test : List (List Nat)} (hinv : ∀ b ∈ bs, ∃ w, FlagsOk f ms ops w b)
    (h : searchLoop f ms ops populate fuel bs test = .ok r) : ∀ b ∈ r, ∃ w, FlagsOk f ms ops w b := by
  induction fuel generalizing bs test with
  | zero =>
    cases test with
    | nil => unfold searchLoop at h; cases h; exact hinv
    | cons w ws => simp [searchLoop] at h
  | succ fuel ih =>
    cases test with
    | nil => unfold searchLoop at h; cases h; exact hinv
    | cons w ws =>
      rw [searchLoop] at h
      obtain ⟨c, hc, h⟩ := bind_ok h
      obtain ⟨b, hb, h⟩ := bind_ok h
      obtain ⟨s, hs, h⟩ := bind_ok h
      obtain ⟨bs', hbs', h⟩ := bind_ok h
      refine ih (fun b' hb' => ?_) h
      have hb := vget_ok_iff.mp hb
      obtain ⟨wb, hwb⟩ := hinv b (List.mem_of_getElem? hb)
      have hloop := opLoop_trail (ops := ops) hd hb hwb.size (n := 0) rfl (fl := b.possibleOps)
        ⟨rfl, fun _ _ => rfl, fun _ h => .inl h, fun _ h => ⟨h, fun h => absurd h (by omega)⟩,
          fun _ _ => rfl, fun i o hi => by simp [lastRep_nil] at hi⟩ hs
      obtain ⟨i, hi⟩ := List.mem_iff_getElem?.mp hb'
      rw [replaceLoop_char hbs' i] at hi
      cases hr : lastRep s.replace i with
      | none =>
        rw [hr, hloop.kept i hr] at hi
        have hi : bs[i]? = some b' := by
          cases hx : bs[i]? with
          | none => rw [hx] at hi; cases hi
          | some x => rw [hx] at hi; exact hi
        exact hinv b' (List.mem_of_getElem? hi)
      | some o =>
        obtain ⟨ho, hfl, b1, op, h1, h2, h3, h4, h5, h6⟩ := hloop.new i o hr
        rw [hr, h1] at hi
        cases hi
        have hon := hwb.on o hfl
        refine ⟨(o, b.function) :: wb, h4, .step hwb.way h2 h3 (by rw [h4] at h5; exact h5), ?_, ?_, ?_, ?_, ?_⟩
        · rw [List.map_cons, List.nodup_cons]
          exact ⟨hon.1, hwb.nodup⟩
        · show (s.possible.set o false).length = _
          rw [List.length_set, hloop.len, hwb.len]
        · intro o' ho'
          change (s.possible.set o false)[o']? = _ at ho'
          by_cases he : o = o'
          · exact .inl (by simp [he])
          · rw [List.getElem?_set_ne he] at ho'
            rcases hloop.off o' ho' with h | h
            · rcases hwb.off o' h with h | ⟨p, hp, h⟩
              · exact .inl (by rw [List.map_cons]; exact List.mem_cons_of_mem _ h)
              · exact .inr ⟨p, List.mem_cons_of_mem _ hp, h⟩
            · exact .inr ⟨_, List.mem_cons_self, h⟩
        · intro o' ho'
          change (s.possible.set o false)[o']? = _ at ho'
          by_cases he : o = o'
          · subst he
            rw [List.getElem?_set] at ho'
            split at ho' <;> simp_all
          · rw [List.getElem?_set_ne he] at ho'
            obtain ⟨k1, k2⟩ := hloop.on o' ho'
            obtain ⟨k3, k4⟩ := hwb.on o' k1
            have hlt : o' < ops.length := by
              have := lt_of_getElem? ho'
              rw [hloop.len, hwb.len] at this
              exact this
            refine ⟨by simp only [List.map_cons, List.mem_cons, not_or]; exact ⟨fun h => he h.symm, k3⟩,
              fun p hp => ?_⟩
            rcases List.mem_cons.mp hp with rfl | hp
            · exact k2 (by rw [List.drop_zero]; omega)
            · exact k4 p hp
        · intro he
          change b1.isEmpty = true at he
          rw [h6] at he
          cases he

theorem bucketGreedyMinimize_trail {fuel : Nat} {f : List (BDD m)} {ms : List (MetricDim m)}
    {ops : List (OpFun m)} {populate : Bool} {r : List (Bucket m)} (hd : ∀ d ∈ ms, 0 < d.bound)
    (h : bucketGreedyMinimize fuel f ms ops populate = .ok r) : ∀ b ∈ r, ∃ w, FlagsOk f ms ops w b := by
  unfold bucketGreedyMinimize at h
  split at h
  · cases h
  · dsimp only at h
    obtain ⟨first, hf, h⟩ := bind_ok h
    have hpos := createIndex_ok_pos hf
    refine searchLoop_trail (fun d hd' => ⟨hd d hd', hpos _ (List.mem_map_of_mem hd')⟩) (fun b hb => ?_) h
    rw [List.eq_of_mem_replicate hb]
    refine ⟨[], rfl, .start, by simp, by simp, fun o ho => ?_, fun o ho => ⟨by simp, by simp⟩, fun _ => rfl⟩
    rw [List.getElem?_replicate] at ho
    split at ho <;> cases ho

/-- The element picked from a sorted set. -/
theorem minElement_spec (w : List Nat) (ws : List (List Nat)) :
    ∃ l r, w :: ws = l ++ minElement w ws :: r ∧ (∀ v ∈ l, (minElement w ws).sum < v.sum) ∧
      ∀ v ∈ r, (minElement w ws).sum ≤ v.sum := by
  induction ws generalizing w with
  | nil => exact ⟨[], [], rfl, by simp, by simp⟩
  | cons v vs ih =>
    unfold minElement
    split
    · rename_i hlt
      obtain ⟨l, r, h1, h2, h3⟩ := ih v
      refine ⟨w :: l, r, by rw [h1]; rfl, ?_, h3⟩
      intro u hu
      rcases List.mem_cons.mp hu with rfl | hu
      · have hm := minElement_mem v vs
        rw [h1] at hm
        have hv : v ∈ l ++ minElement v vs :: r := by rw [← h1]; simp
        rcases List.mem_append.mp hv with hv | hv
        · have := h2 v hv; omega
        · rcases List.mem_cons.mp hv with hv | hv
          · rw [← hv]; exact hlt
          · have := h3 v hv; omega
      · exact h2 u hu
    · rename_i hge
      obtain ⟨l, r, h1, h2, h3⟩ := ih w
      cases l with
      | nil =>
        simp only [List.nil_append, List.cons.injEq] at h1
        refine ⟨[], v :: r, ?_, by simp, ?_⟩
        · rw [← h1.1, ← h1.2]; rfl
        · intro u hu
          rcases List.mem_cons.mp hu with rfl | hu
          · rw [← h1.1]; omega
          · exact h3 u hu
      | cons a l =>
        simp only [List.cons_append, List.cons.injEq] at h1
        obtain ⟨rfl, h1⟩ := h1
        have hw := h2 w (by simp)
        refine ⟨w :: v :: l, r, by rw [List.cons_append, List.cons_append, ← h1], ?_, h3⟩
        intro u hu
        simp only [List.mem_cons] at hu
        rcases hu with rfl | rfl | hu
        · exact hw
        · omega
        · exact h2 u (by simp [hu])

theorem lexLt_lex (a b : List Nat) : lexLt a b = true ↔ a < b := by
  induction a generalizing b with
  | nil => cases b <;> simp [lexLt]
  | cons x a ih =>
    cases b with
    | nil => simp [lexLt]
    | cons y b =>
      rw [List.cons_lt_cons_iff, ← ih]
      rw [lexLt]
      by_cases h1 : x < y
      · simp [h1]
      · rw [if_neg h1]
        by_cases h2 : y < x
        · rw [if_pos h2]
          simp only [Bool.false_eq_true, false_iff]; omega
        · rw [if_neg h2, show x = y by omega]; simp

theorem setInsert_sorted (v : List Nat) (s : List (List Nat))
    (hs : s.Pairwise (fun a b => a < b)) :
    (setInsert v s).Pairwise (fun a b => a < b) := by
  induction s with
  | nil => simp [setInsert]
  | cons w ws ih =>
    obtain ⟨h1, h2⟩ := List.pairwise_cons.mp hs
    unfold setInsert
    split
    · exact hs
    · rename_i hne
      split
      · rename_i hlt
        rw [lexLt_lex] at hlt
        refine List.pairwise_cons.mpr ⟨fun u hu => ?_, hs⟩
        rcases List.mem_cons.mp hu with rfl | hu
        · exact hlt
        · exact lt_trans hlt (h1 u hu)
      · rename_i hlt
        refine List.pairwise_cons.mpr ⟨fun u hu => ?_, ih h2⟩
        rcases mem_setInsert.mp hu with rfl | hu
        · rcases lt_trichotomy u w with h | h | h
          · exact absurd ((lexLt_lex u w).mpr h) hlt
          · exact absurd h hne
          · exact h
        · exact h1 u hu

end Verif

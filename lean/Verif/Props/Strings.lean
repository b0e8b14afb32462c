import Verif.Proofs.Strings
import Verif.Spec

/-!
# C87: strings for CUDD
-/

namespace Verif

variable {m : Mgr}

/-- `t` is what a C string made from `s` shows: everything up to the first NUL. -/
def ShownAs (s t : List Char) : Prop := '\x00' ∉ t ∧ (t = s ∨ ∃ r, s = t ++ '\x00' :: r)

/-- Number of blocks that have not been freed. -/
def live (h : Heap) : Nat := h.countP Option.isSome

/-- `h'` has all blocks of `h` as they were. -/
def Keeps (h h' : Heap) : Prop := ∀ i < h.length, h'[i]? = h[i]?

theorem shownAs_shown (s : List Char) : ShownAs s (shown s) :=
  ⟨fun h => ne_nul_of_mem_shown h rfl, shown_spec s⟩

theorem ShownAs.unique {s t t' : List Char} (h : ShownAs s t) (h' : ShownAs s t') : t = t' := by
  have key : ∀ {s t : List Char}, ShownAs s t → t = shown s := by
    intro s
    induction s with
    | nil =>
      rintro t ⟨h1, rfl | ⟨r, hr⟩⟩
      · rfl
      · simp at hr
    | cons c s ih =>
      rintro t ⟨h1, h2⟩
      by_cases hc : c = '\x00'
      · subst hc
        rcases h2 with rfl | ⟨r, hr⟩
        · simp at h1
        · cases t with
          | nil => simp [shown]
          | cons d t =>
            simp only [List.cons_append, List.cons.injEq] at hr
            rw [← hr.1] at h1
            simp at h1
      · have e : shown (c :: s) = c :: shown s := by
          rw [shown, List.takeWhile_cons_of_pos (by simpa using hc)]
          rfl
        rw [e]
        cases t with
        | nil =>
          rcases h2 with h2 | ⟨r, hr⟩
          · simp at h2
          · simp only [List.nil_append, List.cons.injEq] at hr
            exact absurd hr.1 hc
        | cons d t =>
          have : ShownAs s t := by
            refine ⟨fun h => h1 (List.mem_cons_of_mem _ h), ?_⟩
            rcases h2 with h2 | ⟨r, hr⟩
            · simp only [List.cons.injEq] at h2
              exact .inl h2.2
            · simp only [List.cons_append, List.cons.injEq] at hr
              exact .inr ⟨r, hr.2⟩
          rw [← ih this]
          rcases h2 with h2 | ⟨r, hr⟩
          · simp only [List.cons.injEq] at h2
            rw [h2.1]
          · simp only [List.cons_append, List.cons.injEq] at hr
            rw [hr.1]
  rw [key h, key h']

theorem keeps_append (h t : Heap) : Keeps h (h ++ t) := fun i hi => by rw [List.getElem?_append_left hi]

theorem live_append (h t : Heap) : live (h ++ t) = live h + live t := List.countP_append

theorem live_replicate (k : Nat) : live (List.replicate k none) = 0 := by simp [live, List.countP_replicate]

theorem live_chars (vec : List (List Char)) : live (vec.map (fun s => some (.chars (cbuf s)))) = vec.length := by
  simp [live, List.countP_map, Function.comp_def]

theorem live_cons (b : Option Block) (t : Heap) : live (b :: t) = live t + if b.isSome then 1 else 0 := by
  simp [live, List.countP_cons]

/-- `vec_to_arr` gives one C string per entry, without touching anything else. -/
theorem C87_vec_to_arr (vec : List (List Char)) (h : Heap) :
    ∃ a h', vecToArr vec h = .ok (a, h') ∧ Keeps h h' ∧ live h' = live h + vec.length + 1 ∧
      (∀ (i : Nat) (s : List Char), vec[i]? = some s → ∃ t, h'.readName (some a) i = .ok t ∧ ShownAs s t) ∧
      (∀ i ≥ vec.length, h'.readName (some a) i = .error .ub) := by
  refine ⟨_, _, vecToArr_eq vec h, keeps_append _ _, ?_, fun i s hs => ?_, fun i hi => ?_⟩
  · rw [live_append, arrHeap_eq, live_cons, live_chars, ptrArr]
    simp
    omega
  · refine ⟨shown s, ?_, shownAs_shown s⟩
    have := readName_eq h [] vec i
    rw [List.append_nil] at this
    rw [this, vget_ok_iff.mpr hs]
    rfl
  · have := readName_eq h [] vec i
    rw [List.append_nil] at this
    rw [this, vget_error _ _ hi]
    rfl

/-- `del_arr` with the length of the vector frees everything `vec_to_arr` has allocated and nothing else; a smaller
number leaks the strings behind it, a larger one is undefined, and so is deleting twice. -/
theorem C87_del_arr (vec : List (List Char)) (h : Heap) (a : Nat) (h' : Heap) (hv : vecToArr vec h = .ok (a, h')) :
    (∀ k ≤ vec.length, ∃ h'', delArr (some a) k h' = .ok h'' ∧ Keeps h h'' ∧
      live h'' = live h + (vec.length - k) ∧ ∀ n, delArr (some a) n h'' = .error .ub) ∧
    ∀ k > vec.length, delArr (some a) k h' = .error .ub := by
  rw [vecToArr_eq] at hv
  obtain ⟨rfl, rfl⟩ := Prod.mk.inj (Except.ok.inj hv)
  have hB : ∀ b ∈ vec.map (fun s => (some (.chars (cbuf s)) : Option Block)), b.isSome = true := by simp
  rw [arrHeap_eq]
  refine ⟨fun k hk => ?_, fun k hk => ?_⟩
  · have := delArr_le h [] k _ hB (by simpa using hk)
    simp only [List.append_nil, List.length_map] at this
    refine ⟨_, this, keeps_append _ _, ?_, fun n => ?_⟩
    · rw [live_append, live_cons, live_append, live_replicate, ← List.map_drop, live_chars]
      simp
    · have hb : ∀ t : Heap, Heap.block (h ++ none :: t) h.length = .error .ub := fun t => by simp [Heap.block]
      cases n with
      | zero => simp [delArr, delArrLoop, Heap.free, bind, Except.bind, hb]
      | succ n => simp [delArr, delArrLoop, Heap.getPtr, bind, Except.bind, hb]
  · have := delArr_gt h [] k _ hB (by simpa using hk)
    simpa only [List.append_nil, List.length_map] using this

/-- `del_arr` on the null pointer does nothing for the count 0 and is undefined for every other. -/
theorem C87_del_null (n : Nat) (h : Heap) : delArr none n h = if n = 0 then .ok h else .error .ub := by
  cases n with
  | zero => rfl
  | succ n => simp [delArr, delArrLoop, Heap.getPtr, bind, Except.bind]

/-- The label a variable or function gets: its number if there are no names. -/
def LabelOk (names : List (List Char)) (i : Nat) : DotLabel → Prop
  | .number n => names = [] ∧ n = i
  | .name t => ∃ s, names[i]? = some s ∧ ShownAs s t

/-- The variables the functions depend on. -/
def DependsOn (bdd : List (BDD m)) (v : Nat) : Prop :=
  ∃ f ∈ bdd, ∃ x, f.eval (Function.update x v true) ≠ f.eval (Function.update x v false)

/-- Enough names (or none). -/
def NamesOk (bdd : List (BDD m)) (innames outnames : List (List Char)) : Prop :=
  (innames = [] ∨ ∀ v, DependsOn bdd v → v < innames.length) ∧ (outnames = [] ∨ bdd.length ≤ outnames.length)

theorem namesArr_eq (names : List (List Char)) (h : Heap) : ∃ p H, namesArr names h = .ok (p, h ++ H) ∧
    (∃ H', live H' = 0 ∧ ∀ g t : Heap, g.length = h.length →
      delArr p names.length (g ++ H ++ t) = .ok (g ++ H' ++ t) ∧ H'.length = H.length) ∧
    (∀ t i, (names = [] ∨ i < names.length → ∃ l, dotLabel (h ++ H ++ t) p i = .ok (i, l) ∧ LabelOk names i l) ∧
      (¬ (names = [] ∨ i < names.length) → dotLabel (h ++ H ++ t) p i = .error .ub)) := by
  cases names with
  | nil =>
    refine ⟨none, [], by simp [namesArr], ⟨[], rfl, fun g t _ => ⟨by simp [delArr, delArrLoop, Heap.free, bind,
      Except.bind], rfl⟩⟩, fun t i => ⟨fun _ => ⟨.number i, rfl, rfl, rfl⟩, fun h => absurd (.inl rfl) h⟩⟩
  | cons n ns =>
    refine ⟨some h.length, arrHeap h.length (n :: ns), by simp [namesArr, vecToArr_eq, bind, Except.bind], ?_,
      fun t i => ?_⟩
    · have hB : ∀ b ∈ (n :: ns).map (fun s => (some (.chars (cbuf s)) : Option Block)), b.isSome = true := by simp
      refine ⟨none :: List.replicate (n :: ns).length none, by simp [live_cons, live_replicate],
        fun g t hg => ⟨?_, by simp [arrHeap_eq]⟩⟩
      have := delArr_le g t (n :: ns).length _ hB (by simp)
      rw [arrHeap_eq, ← hg]
      simp only [List.length_map, List.append_assoc, List.cons_append] at this ⊢
      rw [this]
      simp
    · have hr := readName_eq h t (n :: ns) i
      constructor
      · rintro (h0 | hi)
        · simp at h0
        · refine ⟨.name (shown ((n :: ns).getD i [])), ?_, (n :: ns).getD i [], ?_, shownAs_shown _⟩
          · rw [dotLabel, hr, vget_eq _ i [] hi]
            rfl
          · rw [List.getD_eq_getElem?_getD, List.getElem?_eq_getElem hi]
            rfl
      · intro hi
        rw [dotLabel, hr, vget_error _ _ (by simp at hi ⊢; omega)]
        rfl

theorem mapM_forall₂ {α β : Type} (g : α → Except Fault β) (R : α → β → Prop) (l : List α)
    (hl : ∀ a ∈ l, ∃ b, g a = .ok b ∧ R a b) : ∃ r, l.mapM g = .ok r ∧ List.Forall₂ R l r := by
  induction l with
  | nil => exact ⟨[], rfl, .nil⟩
  | cons a l ih =>
    obtain ⟨b, h1, h2⟩ := hl a List.mem_cons_self
    obtain ⟨r, h3, h4⟩ := ih (fun a ha => hl a (List.mem_cons_of_mem _ ha))
    refine ⟨b :: r, ?_, .cons h2 h4⟩
    rw [List.mapM_cons, h1, h3]
    rfl

theorem mapM_ub_of_mem {α β : Type} (g : α → Except Fault β) (l : List α) (hl : ∀ a ∈ l, (∃ b, g a = .ok b) ∨ g a = .error .ub)
    (he : ∃ a ∈ l, g a = .error .ub) : l.mapM g = .error .ub := by
  induction l with
  | nil => simp at he
  | cons a l ih =>
    rw [List.mapM_cons]
    rcases hl a List.mem_cons_self with ⟨b, h1⟩ | h1
    · obtain ⟨a', ha', e⟩ := he
      rcases List.mem_cons.mp ha' with rfl | ha'
      · rw [e]
        rfl
      · rw [h1, ih (fun a ha => hl a (List.mem_cons_of_mem _ ha)) ⟨a', ha', e⟩]
        rfl
    · rw [h1]
      rfl

/-- `dump_dot` labels exactly the variables that matter and all functions, with their names, and gives back all
memory. -/
theorem C87_dump_dot (bdd : List (BDD m)) (hb : bdd ≠ []) (innames outnames : List (List Char)) (h : Heap)
    (hok : NamesOk bdd innames outnames) :
    ∃ vs fs h', dumpDotForest bdd innames outnames h = .ok (some (vs, fs), h') ∧ Keeps h h' ∧ live h' = live h ∧
      (vs.map Prod.fst).Nodup ∧ (∀ v, v ∈ vs.map Prod.fst ↔ DependsOn bdd v) ∧
      (∀ p ∈ vs, LabelOk innames p.1 p.2) ∧
      fs.map Prod.fst = List.range bdd.length ∧ ∀ p ∈ fs, LabelOk outnames p.1 p.2 := by
  obtain ⟨p, H, h1, h2, h3⟩ := namesArr_eq innames h
  obtain ⟨q, K, k1, k2, k3⟩ := namesArr_eq outnames (h ++ H)
  have mem : ∀ v, v ∈ (bdd.flatMap BDD.supportIndices).dedup.insertionSort (· ≤ ·) ↔ DependsOn bdd v := by
    intro v
    rw [List.mem_insertionSort, List.mem_dedup, List.mem_flatMap]
    simp only [BDD.mem_supportIndices, DependsOn]
  have hvs := mapM_forall₂ (dotLabel (h ++ H ++ K) p) (fun v r => r.1 = v ∧ LabelOk innames r.1 r.2)
    ((bdd.flatMap BDD.supportIndices).dedup.insertionSort (· ≤ ·)) (fun v hv => by
      obtain ⟨l, e1, e2⟩ := (h3 K v).1 (hok.1.imp id (fun h => h v ((mem v).mp hv)))
      exact ⟨_, e1, rfl, e2⟩)
  obtain ⟨vs, v1, v2⟩ := hvs
  have hfs := mapM_forall₂ (dotLabel (h ++ H ++ K) q) (fun v r => r.1 = v ∧ LabelOk outnames r.1 r.2)
    (List.range bdd.length) (fun v hv => by
      have := k3 [] v
      rw [List.append_nil] at this
      obtain ⟨l, e1, e2⟩ := this.1 (hok.2.imp id (fun h => lt_of_lt_of_le (List.mem_range.mp hv) h))
      exact ⟨_, e1, rfl, e2⟩)
  obtain ⟨fs, f1, f2⟩ := hfs
  obtain ⟨H', d1, d2⟩ := h2
  obtain ⟨K', l1, l2⟩ := k2
  have hfst : ∀ {names : List (List Char)} {l : List Nat} {r : List (Nat × DotLabel)},
      List.Forall₂ (fun v r => r.1 = v ∧ LabelOk names r.1 r.2) l r →
        r.map Prod.fst = l ∧ ∀ p ∈ r, LabelOk names p.1 p.2 := by
    intro names l r hr
    induction hr with
    | nil => simp
    | cons h _ ih =>
      refine ⟨by rw [List.map_cons, ih.1, h.1], fun p hp => ?_⟩
      rcases List.mem_cons.mp hp with rfl | hp
      · exact h.2
      · exact ih.2 p hp
  obtain ⟨va, vb⟩ := hfst v2
  obtain ⟨fa, fb⟩ := hfst f2
  have r1 := (d2 h K rfl).1
  have r2 := (l2 (h ++ H') [] (by rw [List.length_append, List.length_append, (d2 h K rfl).2])).1
  rw [List.append_nil, List.append_nil] at r2
  refine ⟨vs, fs, h ++ H' ++ K', ?_, ?_, ?_, ?_, ?_, vb, fa, fb⟩
  · rw [dumpDotForest, if_neg (by simpa using hb), h1]
    simp only [bind, Except.bind]
    rw [k1]
    simp only [cuddDumpDot, bind, Except.bind] at v1 f1 ⊢
    rw [v1]
    simp only []
    rw [f1]
    simp only []
    rw [r1]
    simp only []
    rw [r2]
  · rw [List.append_assoc]
    exact keeps_append _ _
  · rw [live_append, live_append, d1, l1, Nat.add_zero]
  · rw [va]
    exact ((List.perm_insertionSort _ _).nodup_iff).mpr (List.nodup_dedup _)
  · intro v
    rw [va, mem]

/-- Without enough names the behaviour is undefined. -/
theorem C87_dump_dot_undefined (bdd : List (BDD m)) (hb : bdd ≠ []) (innames outnames : List (List Char)) (h : Heap)
    (hok : ¬ NamesOk bdd innames outnames) : dumpDotForest bdd innames outnames h = .error .ub := by
  obtain ⟨p, H, h1, -, h3⟩ := namesArr_eq innames h
  obtain ⟨q, K, k1, -, k3⟩ := namesArr_eq outnames (h ++ H)
  have mem : ∀ v, v ∈ (bdd.flatMap BDD.supportIndices).dedup.insertionSort (· ≤ ·) ↔ DependsOn bdd v := by
    intro v
    rw [List.mem_insertionSort, List.mem_dedup, List.mem_flatMap]
    simp only [BDD.mem_supportIndices, DependsOn]
  have lv : ∀ v, (∃ b, dotLabel (h ++ H ++ K) p v = .ok b) ∨ dotLabel (h ++ H ++ K) p v = .error .ub := fun v => by
    by_cases hv : innames = [] ∨ v < innames.length
    · obtain ⟨l, e, -⟩ := (h3 K v).1 hv
      exact .inl ⟨_, e⟩
    · exact .inr ((h3 K v).2 hv)
  have k3' := k3 []
  rw [List.append_nil] at k3'
  have lf : ∀ v, (∃ b, dotLabel (h ++ H ++ K) q v = .ok b) ∨ dotLabel (h ++ H ++ K) q v = .error .ub := fun v => by
    by_cases hv : outnames = [] ∨ v < outnames.length
    · obtain ⟨l, e, -⟩ := (k3' v).1 hv
      exact .inl ⟨_, e⟩
    · exact .inr ((k3' v).2 hv)
  have key : cuddDumpDot (h ++ H ++ K) bdd p q = .error .ub := by
    rw [cuddDumpDot]
    by_cases hin : ∃ v ∈ (bdd.flatMap BDD.supportIndices).dedup.insertionSort (· ≤ ·),
        dotLabel (h ++ H ++ K) p v = .error .ub
    · rw [mapM_ub_of_mem _ _ (fun v _ => lv v) hin]
      rfl
    · obtain ⟨r, e, -⟩ := mapM_forall₂ (dotLabel (h ++ H ++ K) p) (fun _ _ => True)
        ((bdd.flatMap BDD.supportIndices).dedup.insertionSort (· ≤ ·)) (fun v hv => by
          rcases lv v with ⟨b, e⟩ | e
          · exact ⟨b, e, trivial⟩
          · exact absurd ⟨v, hv, e⟩ hin)
      have hout : ¬ (outnames = [] ∨ bdd.length ≤ outnames.length) := by
        intro ho
        apply hok
        refine ⟨?_, ho⟩
        by_contra hn
        rw [not_or] at hn
        obtain ⟨hn1, hn2⟩ := hn
        apply hin
        push Not at hn2
        obtain ⟨v, hv, hl⟩ := hn2
        exact ⟨v, (mem v).mpr hv, (h3 K v).2 (by rw [not_or]; exact ⟨hn1, by omega⟩)⟩
      rw [not_or] at hout
      rw [e]
      have := mapM_ub_of_mem (dotLabel (h ++ H ++ K) q) (List.range bdd.length) (fun v _ => lf v)
        ⟨outnames.length, by rw [List.mem_range]; omega, (k3' _).2 (by rw [not_or]; exact ⟨hout.1, lt_irrefl _⟩)⟩
      simp only [bind, Except.bind] at this ⊢
      rw [this]
  rw [dumpDotForest, if_neg (by simpa using hb), h1]
  simp only [bind, Except.bind]
  rw [k1]
  simp only []
  rw [key]

/-- Nothing is drawn for an empty forest, whatever the names are. -/
theorem C87_dump_dot_empty (innames outnames : List (List Char)) (h : Heap) :
    dumpDotForest ([] : List (BDD m)) innames outnames h = .ok (none, h) := rfl

/-- A single function gets the given name, also if it is empty. -/
theorem C87_dump_dot_single (f : BDD m) (innames : List (List Char)) (name : List Char) (h : Heap)
    (hok : innames = [] ∨ ∀ v, (∃ x, f.eval (Function.update x v true) ≠ f.eval (Function.update x v false)) →
      v < innames.length) :
    ∃ vs t h', dumpDotSingle f innames name h = .ok (some (vs, [(0, .name t)]), h') ∧ ShownAs name t ∧
      Keeps h h' ∧ live h' = live h ∧ (vs.map Prod.fst).Nodup ∧
      (∀ v, v ∈ vs.map Prod.fst ↔
        ∃ x, f.eval (Function.update x v true) ≠ f.eval (Function.update x v false)) ∧
      ∀ p ∈ vs, LabelOk innames p.1 p.2 := by
  have hd : ∀ v, DependsOn [f] v ↔
      ∃ x, f.eval (Function.update x v true) ≠ f.eval (Function.update x v false) := fun v => by simp [DependsOn]
  obtain ⟨vs, fs, h', e1, e2, e3, e4, e5, e6, e7, e8⟩ := C87_dump_dot [f] (by simp) innames [name] h
    ⟨hok.imp id (fun h v hv => h v ((hd v).mp hv)), .inr (by simp)⟩
  match fs, e7, e8 with
  | [(i, l)], e7, e8 =>
    have hi : i = 0 := by simpa using e7
    subst hi
    have := e8 _ List.mem_cons_self
    cases l with
    | number n => simp [LabelOk] at this
    | name t =>
      obtain ⟨s, hs, ht⟩ := this
      have : s = name := by simpa using hs.symm
      subst this
      exact ⟨vs, t, h', e1, ht, e2, e3, e4, fun v => (e5 v).trans (hd v), e6⟩

example : (vecToArr ["ab".toList, "".toList] []).toOption.isSome = true ∧
    NamesOk [BDD.var (m := .id) 1, BDD.var 0] ["a".toList, "b".toList, "c".toList] [] := by
  refine ⟨by decide, .inr ?_, .inl rfl⟩
  rintro v ⟨f, hf, hx⟩
  have hv : v ∈ f.supportIndices := BDD.mem_supportIndices.mpr hx
  have key : ∀ f ∈ [BDD.var (m := .id) 1, BDD.var 0], ∀ v ∈ f.supportIndices, v < 3 := by decide +kernel
  exact key f hf v hv

/-- A name is missing. -/
example : (dumpDotForest [BDD.var (m := .id) 2] ["a".toList] [] []).toOption = none := by decide +kernel

/-- The strings behind an embedded NUL are lost. -/
example : ShownAs ['a', '\x00', 'b'] ['a'] := ⟨by decide, .inr ⟨['b'], rfl⟩⟩

end Verif

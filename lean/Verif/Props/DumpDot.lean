import Verif.Proofs.DumpDot

/-!
# Properties of `dump_dot_readable`

C70: the graph declares every node once and shows the functions.
-/

namespace Verif

variable {m : Mgr}

/-- C70.  With one name per function (or none) and a name for every variable (or none) the dump succeeds.
It declares every node of the functions and both terminals, each exactly once, and every declared inner node
has exactly one solid edge to its then child and one dashed edge to its else child; there are no others. -/
theorem C70_nodes (asserts : Bool) (bdds : List (BDD m)) (fnames vnames : List (List Char)) (enforce : Bool)
    (left : Option Bool) (h1 : fnames = [] ∨ fnames.length = bdds.length)
    (h2 : vnames = [] ∨ Fits vnames.length bdds) :
    ∃ g, dumpDot asserts bdds fnames vnames enforce left = .ok g ∧ (dotNodes g).Nodup ∧
      (∀ a : Edge, a ∈ dotNodes g ↔ a.n = .one ∨ ∃ f ∈ bdds, a ∈ f.edge.n.reach f.edge.neg) ∧
      (dotEdges g).Nodup ∧
      ∀ (a b : Edge) (s : Bool), (a, b, s) ∈ dotEdges g ↔
        a ∈ dotNodes g ∧ ∃ v t c e, a.n = .node v t c e ∧ b = if s then ⟨a.neg, t⟩ else ⟨a.neg ^^ c, e⟩ := by
  obtain ⟨g, hg, hd⟩ := dumpDot_ok asserts bdds fnames vnames enforce left h1 h2
  obtain ⟨ns, n1, n2, n3⟩ := hd.nodes
  have hmem : ∀ a : Edge, a ∈ dotNodes g ↔ a.n = .one ∨ ∃ f ∈ bdds, a ∈ f.edge.n.reach f.edge.neg := by
    intro a
    rw [n2, List.mem_append, n3]
    constructor
    · rintro (⟨h, _⟩ | h)
      · exact .inr h
      · simp only [List.mem_cons, List.not_mem_nil, or_false] at h
        rcases h with rfl | rfl <;> exact .inl rfl
    · intro h
      by_cases ha : a.n = .one
      · right
        obtain ⟨neg, n⟩ := a
        simp only at ha
        subst ha
        cases neg
        · exact List.mem_cons_self
        · exact List.mem_cons_of_mem _ (List.mem_singleton.mpr rfl)
      · rcases h with h | h
        · exact absurd h ha
        · exact .inl ⟨h, ha⟩
  refine ⟨g, hg, ?_, hmem, hd.edges_nodup, ?_⟩
  · rw [n2, List.nodup_append]
    refine ⟨n1, by decide, ?_⟩
    rintro a ha b hb rfl
    refine ((n3 a).mp ha).2 ?_
    simp only [List.mem_cons, List.not_mem_nil, or_false] at hb
    rcases hb with rfl | rfl <;> rfl
  · intro a b s
    rw [hd.mem_edges, hmem]
    constructor
    · rintro ⟨hr, v, t, c, e, ha, hb⟩
      exact ⟨.inr hr, v, t, c, e, ha, hb⟩
    · rintro ⟨hr | hr, v, t, c, e, ha, hb⟩
      · rw [ha] at hr; cases hr
      · exact ⟨hr, v, t, c, e, ha, hb⟩

/-- A letter with a number in subscript digits (the characters 8320 to 8329), in italics. -/
def subscripted (letter : Char) (n : Nat) : List Char :=
  "<I>".toList ++ [letter] ++ (Nat.toDigits 10 n).flatMap (fun c => "&#832".toList ++ [c, ';']) ++ "</I>".toList

/-- The names of functions that were given none: `f` for one, numbers from 0 for several. -/
def numberedNames (k : Nat) : List (List Char) :=
  if k = 1 then ["f".toList] else (List.range k).map (fun i => "<".toList ++ subscripted 'f' i ++ ">".toList)

theorem subscript_small {n : Nat} (h : n < 2 ^ 31) (c : Char) :
    "<I>".toList ++ [c] ++ subscript n ++ "</I>".toList = subscripted c n := by
  have e : intArg n = n := by
    unfold intArg
    rw [if_pos (by omega)]
    omega
  simp only [subscript, subscripted, e]
  simp

theorem functionNames_numbered (k : Nat) (h : k ≤ 2 ^ 31) : functionNames k [] = numberedNames k := by
  unfold functionNames numberedNames
  rw [if_pos rfl]
  rcases Nat.lt_trichotomy k 1 with h1 | rfl | h1
  · obtain rfl : k = 0 := by omega
    rfl
  · rfl
  · rw [if_pos h1, if_neg (by omega), if_neg (by omega), List.append_nil]
    refine List.map_congr_left fun i hi => ?_
    rw [← subscript_small (by have := List.mem_range.mp hi; omega)]
    simp

/-- C70.  The drawing shows the functions: there is one name per function, linked to its root; every
variable has a label (the given one, if labels are given); and from the root of a function, following solid
edges out of nodes whose label is true and dashed edges out of the others, the reachable terminal is the
value of the function, and only that.  Names and labels are pairwise distinct when the given ones are. -/
theorem C70_draws (asserts : Bool) (bdds : List (BDD m)) (fnames vnames : List (List Char)) (enforce : Bool)
    (left : Option Bool) (h1 : fnames = [] ∨ fnames.length = bdds.length)
    (h2 : vnames = [] ∨ Fits vnames.length bdds) :
    ∃ g, dumpDot asserts bdds fnames vnames enforce left = .ok g ∧
      (dotNames g).length = bdds.length ∧
      dotLinks g = (dotNames g).zip (bdds.map (·.edge)) ∧
      (fnames ≠ [] → dotNames g = fnames.map (fun f => '<' :: f ++ ['>'])) ∧
      (fnames = [] → bdds.length ≤ 2 ^ 31 → dotNames g = numberedNames bdds.length) ∧
      (fnames.Nodup → bdds.length ≤ 2 ^ 32 → (dotNames g).Nodup) ∧
      ∃ label : Nat → List Char,
        (∀ v l, vnames[v]? = some l → label v = l) ∧
        (vnames = [] → ∀ v, v + 1 < 2 ^ 31 → label v = subscripted 'x' (v + 1)) ∧
        (vnames.Nodup → Fits (2 ^ 32 - 1) bdds →
          ∀ f ∈ bdds, ∀ v ∈ f.supportIndices, ∀ f' ∈ bdds, ∀ w ∈ f'.supportIndices,
            label v = label w → v = w) ∧
        ∀ (x : Asg) (val : List Char → Bool),
          (∀ f ∈ bdds, ∀ v ∈ f.supportIndices, val (label v) = x v) →
          ∀ f ∈ bdds, ∀ b, DotWalk g val f.edge b ↔ f.eval x = b := by
  obtain ⟨g, hg, hd⟩ := dumpDot_ok asserts bdds fnames vnames enforce left h1 h2
  have hfits := (levels_le_iff bdds (collectAll bdds {}).levels.length).mp le_rfl
  have hlab : ∃ label : Nat → List Char, (∀ v l, vnames[v]? = some l → label v = l) ∧
      (vnames = [] → ∀ v, v + 1 < 2 ^ 31 → label v = subscripted 'x' (v + 1)) ∧
      (vnames.Nodup → Fits (2 ^ 32 - 1) bdds →
          ∀ f ∈ bdds, ∀ v ∈ f.supportIndices, ∀ f' ∈ bdds, ∀ w ∈ f'.supportIndices,
            label v = label w → v = w) ∧
      ∀ f ∈ bdds, ∀ v ∈ f.supportIndices,
        (variableNames (collectAll bdds {}).levels.length vnames)[v]? = some (label v) := by
    by_cases hv : vnames = []
    · subst hv
      refine ⟨fun i => "<I>x".toList ++ subscript (i + 1) ++ "</I>".toList, by simp, ?_, ?_, ?_⟩
      · intro _ v hv
        rw [← subscript_small hv]
        simp
      · intro _ hfit f hf v hv f' hf' w hw he
        have e := subscript_inj (a := v + 1) (b := w + 1) (by have := hfit f hf v hv; omega)
          (by have := hfit f' hf' w hw; omega) (List.append_cancel_left (List.append_cancel_right he))
        omega
      · intro f hf v hv
        exact (variableNames_default _).2 v (hfits f hf v hv)
    · rw [variableNames_given hv]
      have hfit : Fits vnames.length bdds := h2.resolve_left hv
      refine ⟨fun i => vnames.getD i [], ?_, fun h => absurd h hv, ?_, ?_⟩
      · intro v l h
        simp [List.getD, h]
      · intro hnd _ f hf v hv f' hf' w hw he
        have l1 := hfit f hf v hv
        have l2 := hfit f' hf' w hw
        simp only [List.getD, List.getElem?_eq_getElem l1, List.getElem?_eq_getElem l2,
          Option.getD_some] at he
        exact (hnd.getElem_inj_iff).mp he
      · intro f hf v hv
        have l1 := hfit f hf v hv
        simp [List.getD, List.getElem?_eq_getElem l1]
  obtain ⟨label, hl1, hl0, hl2, hl3⟩ := hlab
  refine ⟨g, hg, ?_, ?_, ?_, ?_, ?_, label, hl1, hl0, hl2, ?_⟩
  · rw [hd.fnames]
    by_cases hf : fnames = []
    · subst hf; exact (functionNames_default _).1
    · rw [functionNames_given hf, List.length_map]
      exact h1.resolve_left hf
  · rw [hd.fnames, hd.links]
  · intro hf
    rw [hd.fnames, functionNames_given hf]
    rfl
  · intro hf hle
    subst hf
    rw [hd.fnames, functionNames_numbered _ hle]
  · intro hn hle
    rw [hd.fnames]
    by_cases hf : fnames = []
    · subst hf; exact (functionNames_default _).2 hle
    · exact functionNames_given_nodup hf hn
  · intro x val hval f hf b
    have := hd.walk (x := x) (val := val)
      (fun f hf v hv => ⟨label v, hl3 f hf v hv, hval f hf v hv⟩) f.edge.n f.edge.neg
      ⟨f, hf, DD.self_mem_reach _ _⟩ b
    rw [this]
    exact eq_comm

/-- C70.  With labels that are distinct, every assignment is a valuation of the labels, so the drawing gives
the value of every function on every assignment. -/
theorem C70_reads (asserts : Bool) (bdds : List (BDD m)) (fnames vnames : List (List Char)) (enforce : Bool)
    (left : Option Bool) (h1 : fnames = [] ∨ fnames.length = bdds.length)
    (h2 : vnames = [] ∨ Fits vnames.length bdds) (hn : vnames.Nodup) (hv : Fits (2 ^ 32 - 1) bdds) :
    ∃ g, dumpDot asserts bdds fnames vnames enforce left = .ok g ∧
      ∀ x : Asg, ∃ val : List Char → Bool, ∀ f ∈ bdds, ∀ b, DotWalk g val f.edge b ↔ f.eval x = b := by
  obtain ⟨g, hg, _, _, _, _, _, label, _, _, hinj, hw⟩ :=
    C70_draws asserts bdds fnames vnames enforce left h1 h2
  refine ⟨g, hg, fun x => ?_⟩
  classical
  refine ⟨fun l => decide (∃ f ∈ bdds, ∃ v ∈ f.supportIndices, label v = l ∧ x v = true), hw x _ ?_⟩
  intro f hf v hvs
  by_cases hx : x v = true
  · rw [hx]
    exact decide_eq_true ⟨f, hf, v, hvs, rfl, hx⟩
  · have : x v = false := by simpa using hx
    rw [this]
    refine decide_eq_false ?_
    rintro ⟨f', hf', w, hw', he, hxw⟩
    have := hinj hn hv f' hf' w hw' f hf v hvs he
    rw [this] at hxw
    exact hx hxw

/-- C70.  The conditions on the numbers of names are needed: if they do not hold, the assertions fail. -/
theorem C70_assertions (bdds : List (BDD m)) (fnames vnames : List (List Char)) (enforce : Bool)
    (left : Option Bool) : dumpDot true bdds fnames vnames enforce left = .error .assertion ↔
      ¬ ((fnames = [] ∨ fnames.length = bdds.length) ∧ (vnames = [] ∨ Fits vnames.length bdds)) := by
  constructor
  · rintro h ⟨h1, h2⟩
    obtain ⟨g, hg, _⟩ := dumpDot_ok true bdds fnames vnames enforce left h1 h2
    rw [h] at hg
    cases hg
  · intro h
    by_cases h1 : fnames = [] ∨ fnames.length = bdds.length
    · have h2 : ¬ (vnames = [] ∨ Fits vnames.length bdds) := fun h2 => h ⟨h1, h2⟩
      have hc1 : check true (decide (bdds.length = fnames.length) || decide (fnames = [])) = .ok () := by
        apply check_of
        rcases h1 with h1 | h1
        · simp [h1]
        · simp [h1]
      have hc2 : (decide (vnames = []) ||
          decide ((collectAll bdds {}).levels.length ≤ vnames.length)) = false := by
        have h3 := h2
        rw [← levels_le_iff] at h3
        simpa using h3
      unfold dumpDot
      dsimp only
      rw [hc1, hc2]
      rfl
    · have hc1 : (decide (bdds.length = fnames.length) || decide (fnames = [])) = false := by
        simp only [not_or] at h1
        simp [h1.1, Ne.symm h1.2]
      unfold dumpDot
      dsimp only
      rw [hc1]
      rfl

/-- C70.  Without assertions (`NDEBUG`), more function names than functions, or too few variable names, are
undefined behaviour. -/
theorem C70_ub (bdds : List (BDD m)) (fnames vnames : List (List Char)) (enforce : Bool)
    (left : Option Bool)
    (h : bdds.length < fnames.length ∨ vnames ≠ [] ∧ ¬ Fits vnames.length bdds) :
    dumpDot false bdds fnames vnames enforce left = .error .ub := by
  have hc : ∀ c, check false c = .ok () := fun c => by cases c <;> rfl
  unfold dumpDot
  dsimp only
  rw [hc, hc]
  show (linkLoop bdds (functionNames bdds.length fnames) 0 >>= _) = _
  by_cases hlen : (functionNames bdds.length fnames).length ≤ bdds.length
  · rw [linkLoop_ok bdds _ 0 (by omega)]
    rcases h with h | ⟨hv, hf⟩
    · have hne : fnames ≠ [] := by rintro rfl; simp at h
      rw [functionNames_given hne, List.length_map] at hlen
      omega
    · rw [← levels_le_iff, not_le] at hf
      obtain ⟨k, L, hL, hne, hk⟩ := last_level_ne_nil bdds _ hf
      show (levelLoop _ 0 _ >>= _) = _
      rw [variableNames_given hv, levelLoop_ub vnames _ 0 k L hL hne (by omega)]
      rfl
  · rw [linkLoop_ub bdds _ 0 (by omega) (by omega)]
    rfl

/-- C70.  Without assertions, fewer (but some) function names than functions: the dump succeeds and the
functions without a name have no link. -/
theorem C70_unnamed (bdds : List (BDD m)) (fnames : List (List Char)) (enforce : Bool) (left : Option Bool)
    (h : fnames ≠ []) (hl : fnames.length < bdds.length) :
    ∃ g, dumpDot false bdds fnames [] enforce left = .ok g ∧
      (dotLinks g).map Prod.snd = (bdds.take fnames.length).map (·.edge) := by
  obtain ⟨g, hg, hd⟩ := dumpDot_ok' false bdds fnames [] enforce left (.inr (.inr ⟨rfl, hl.le⟩)) (.inl rfl)
  refine ⟨g, hg, ?_⟩
  rw [hd.links, functionNames_given h]
  have key : ∀ (a : List (List Char)) (b : List (BDD m)), a.length ≤ b.length →
      ((a.map (fun f => "<".toList ++ f ++ ">".toList)).zip (b.map (·.edge))).map Prod.snd =
        (b.take a.length).map (·.edge) := by
    intro a
    induction a with
    | nil => intro b _; rfl
    | cons c a ih =>
      intro b hb
      cases b with
      | nil => simp at hb
      | cons d b =>
        simp only [List.map_cons, List.zip_cons_cons, List.length_cons, List.take_succ_cons]
        rw [ih b (by simpa using hb)]
  exact key fnames bdds hl.le

/-! ## Examples -/

/-- Two functions sharing a node and using complement edges. -/
def exampleDrawn : List (BDD .id) := [(BDD.var 0).xor (BDD.var 1), BDD.var 1]

/-- The hypotheses are met by the default names and by given ones. -/
example : (([] : List (List Char)) = [] ∨ ([] : List (List Char)).length = exampleDrawn.length) ∧
    Fits 2 exampleDrawn ∧ Fits (2 ^ 32 - 1) exampleDrawn ∧
    (["a".toList, "b".toList] : List (List Char)).Nodup ∧
    ["a".toList, "b".toList].length = exampleDrawn.length := by
  refine ⟨.inl rfl, ?_, ?_, by decide, rfl⟩
  · unfold Fits; decide +kernel
  · have h : Fits 2 exampleDrawn := by unfold Fits; decide +kernel
    intro f hf v hv
    have := h f hf v hv
    omega

example : (match dumpDot true exampleDrawn [] [] true (some true) with
    | .ok g => ((dotNodes g).length, (dotEdges g).length, (dotLinks g).length)
    | .error _ => (0, 0, 0)) = (5, 6, 2) := by decide +kernel

example : dumpDot true exampleDrawn ["a".toList] [] true none = .error .assertion ∧
    dumpDot false exampleDrawn [] ["x".toList] true none = .error .ub ∧
    dumpDot false exampleDrawn ["a".toList, "b".toList, "c".toList] [] true none = .error .ub ∧
    (["a".toList] : List (List Char)).length < exampleDrawn.length := by decide +kernel

end Verif

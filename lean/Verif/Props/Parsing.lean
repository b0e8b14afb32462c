import Verif.Proofs.Parsing

/-!
# C66 – C69, C74: the parsers and the class `Function`

A file is the sequence of callbacks made for it.
-/

namespace Verif

variable {m : Mgr}

/-! ## C66 PLA files -/

/-- The outputs are the sums of products the file describes, added to what the caller's vector held
before.  `plaColumns` is `0, 1, …, n-1` for a file with one declaration of `n` inputs. -/
theorem C66_sum_of_products (es : List PlaEvent) (out : List (BDD m)) (innames outnames : List (List Char))
    (h : PlaInRange 0 out.length es) :
    ∃ s, plaRun es (plaNew out innames outnames) = .ok s ∧
      s.outputs.length = out.length + plaOutputs es ∧
      ∀ (j : Nat) (o : BDD m), s.outputs[j]? = some o → ∀ x, o.eval x = true ↔
        (∃ o₀, out[j]? = some o₀ ∧ o₀.eval x = true) ∨
        ∃ cube sel, .term cube sel ∈ es ∧ sel[j]? = some '1' ∧ CubeAt (plaColumns es) cube x := by
  obtain ⟨s, h1, _, h3, h4⟩ := plaRun_ok es [] (plaNew out innames outnames) rfl h
  exact ⟨s, h1, h3, by simpa [plaNew] using h4⟩

/-- The usual file: one declaration of `n` inputs, one of `k` outputs, then terms; fresh vectors. -/
theorem C66_usual_file (n k : Nat) (ts : List (List Char × List Char))
    (h1 : ∀ t ∈ ts, t.1.length ≤ n) (h2 : ∀ t ∈ ts, t.2.length ≤ k) :
    ∃ s : PlaState m, plaRun (.inputs n :: .outputs k :: ts.map (fun t => .term t.1 t.2))
        (plaNew [] [] []) = .ok s ∧ s.outputs.length = k ∧
      ∀ (j : Nat) (o : BDD m), s.outputs[j]? = some o → ∀ x, o.eval x = true ↔
        ∃ t ∈ ts, t.2[j]? = some '1' ∧
          ∀ i < n, (t.1[i]? = some '0' → x i = false) ∧ (t.1[i]? = some '1' → x i = true) := by
  have hr : ∀ (ts : List (List Char × List Char)), (∀ t ∈ ts, t.1.length ≤ n) →
      (∀ t ∈ ts, t.2.length ≤ k) → PlaInRange n k (ts.map (fun t => .term t.1 t.2)) := by
    intro ts
    induction ts with
    | nil => intro _ _; trivial
    | cons t ts ih =>
      intro h1 h2
      refine ⟨fun i hi _ => lt_of_lt_of_le hi (h1 t (by simp)),
        fun i hi _ => lt_of_lt_of_le hi (h2 t (by simp)),
        ih (fun t ht => h1 t (by simp [ht])) (fun t ht => h2 t (by simp [ht]))⟩
  obtain ⟨s, g1, g2, g3⟩ := C66_sum_of_products (m := m)
    (.inputs n :: .outputs k :: ts.map (fun t => .term t.1 t.2)) [] [] []
    (by simpa [PlaInRange] using hr ts h1 h2)
  have e1 : plaColumns (.inputs n :: .outputs k :: ts.map (fun t => .term t.1 t.2)) = List.range n := by
    simp [plaColumns, List.flatMap_map]
  have e2 : plaOutputs (.inputs n :: .outputs k :: ts.map (fun t => .term t.1 t.2)) = k := by
    simp [plaOutputs, Function.comp_def]
  rw [e2] at g2
  refine ⟨s, g1, by simpa using g2, ?_⟩
  intro j o ho x
  rw [g3 j o ho x, e1]
  simp only [List.getElem?_nil, reduceCtorEq, false_and, exists_false, false_or]
  have hc : ∀ c : List Char, CubeAt (List.range n) c x ↔
      ∀ i < n, (c[i]? = some '0' → x i = false) ∧ (c[i]? = some '1' → x i = true) := by
    intro c
    constructor
    · intro h i hi
      exact h i i (by simp [hi])
    · intro h i v hv
      have hi : i < n := by simpa using lt_of_getElem? hv
      have : i = v := by simpa [hi] using hv
      exact this ▸ h i hi
  constructor
  · rintro ⟨c, o', g4, g5, g6⟩
    obtain ⟨t, ht, e⟩ : ∃ t ∈ ts, PlaEvent.term t.1 t.2 = .term c o' := by
      simpa using g4
    cases e
    exact ⟨t, ht, g5, (hc _).mp g6⟩
  · rintro ⟨t, ht, g5, g6⟩
    exact ⟨t.1, t.2, List.mem_cons_of_mem _ (List.mem_cons_of_mem _ (List.mem_map.mpr ⟨t, ht, rfl⟩)), g5,
      (hc _).mpr g6⟩

/-- There are no range checks: a file runs into undefined behaviour iff it has a literal without a
column or a `1` without an output. -/
theorem C66_undefined_behaviour (es : List PlaEvent) (out : List (BDD m))
    (innames outnames : List (List Char)) :
    plaRun es (plaNew out innames outnames) = .error .ub ↔ ¬ PlaInRange 0 out.length es := by
  constructor
  · intro h hr
    obtain ⟨s, h1, _⟩ := C66_sum_of_products es out innames outnames hr
    rw [h] at h1
    cases h1
  · exact plaRun_ub es [] (plaNew out innames outnames) rfl

/-- After a second declaration of inputs the further columns stand for the variables `0, 1, …` again. -/
theorem C66_inputs_declared_twice (n k : Nat) (es : List PlaEvent) (i : Nat) (hi : i < k) :
    (plaColumns (.inputs n :: .inputs k :: es))[n + i]? = some i := by
  have : plaColumns (.inputs n :: .inputs k :: es) = List.range n ++ (List.range k ++ plaColumns es) := rfl
  rw [this, List.getElem?_append_right (by simp), List.getElem?_append_left (by simpa using hi)]
  simp [hi]

/-- The file of `tests/dc.pla`'s kind: overlapping cubes with don't cares. -/
example : ∃ s : PlaState .id, plaRun [.inputs 2, .outputs 2, .term "1-".toList "10".toList,
      .term "-0".toList "11".toList] (plaNew [] [] []) = .ok s ∧
    s.outputs = [(BDD.var 0).or (BDD.var 1).not, (BDD.var 1).not] := by
  exact ⟨_, rfl, by decide +kernel⟩

example : PlaInRange 0 0 [.inputs 2, .outputs 2, .term "1-".toList "10".toList,
    .term "-0".toList "11".toList] := by
  simp only [PlaInRange]
  decide

example : ¬ PlaInRange 0 0 [.inputs 1, .outputs 1, .term "11".toList "1".toList] := by
  simp only [PlaInRange]
  decide

/-! ## C74 names in PLA files -/

/-- `split` appends the words of the text: whatever white space is around them. -/
theorem C74_split (lead : List Char) (ps : List (List Char × List Char)) (cont : List (List Char))
    (h1 : ∀ c ∈ lead, White c)
    (h2 : ∀ p ∈ ps, p.1 ≠ [] ∧ (∀ c ∈ p.1, ¬ White c) ∧ ∀ c ∈ p.2, White c)
    (h3 : ∀ p ∈ ps.dropLast, p.2 ≠ []) :
    split (interleave lead ps) cont = cont ++ ps.map Prod.fst := by
  rw [split, tokens_interleave ps lead h1 h2 h3]

/-- Every text has the form of `C74_split`. -/
theorem C74_split_all (s : List Char) : ∃ lead ps, s = interleave lead ps ∧ (∀ c ∈ lead, White c) ∧
    (∀ p ∈ ps, p.1 ≠ [] ∧ (∀ c ∈ p.1, ¬ White c) ∧ ∀ c ∈ p.2, White c) ∧
    (∀ p ∈ ps.dropLast, p.2 ≠ []) :=
  interleave_exists s

/-- The first `.ilb` line names the inputs and the manager's variables, if the caller's vector is empty. -/
theorem C74_input_names (lead : List Char) (ps : List (List Char × List Char)) (s : PlaState m)
    (h1 : ∀ c ∈ lead, White c)
    (h2 : ∀ p ∈ ps, p.1 ≠ [] ∧ (∀ c ∈ p.1, ¬ White c) ∧ ∀ c ∈ p.2, White c)
    (h3 : ∀ p ∈ ps.dropLast, p.2 ≠ []) (hs : s.inNames = []) :
    ∃ s', plaRun [.keyword "ilb".toList (interleave lead ps)] s = .ok s' ∧
      s'.inNames = ps.map Prod.fst ∧ s'.mgrNames = s.mgrNames ++ ps.map Prod.fst ∧
      s'.outNames = s.outNames ∧ s'.outputs = s.outputs ∧ s'.bddVars = s.bddVars := by
  have := C74_split lead ps s.inNames h1 h2 h3
  rw [hs, List.nil_append] at this
  refine ⟨_, rfl, ?_, ?_, rfl, rfl, rfl⟩
  · simp only [onKeyword, if_true, hs]
    exact this
  · simp only [onKeyword, if_true, hs]
    rw [this]

theorem C74_output_names (lead : List Char) (ps : List (List Char × List Char)) (s : PlaState m)
    (h1 : ∀ c ∈ lead, White c)
    (h2 : ∀ p ∈ ps, p.1 ≠ [] ∧ (∀ c ∈ p.1, ¬ White c) ∧ ∀ c ∈ p.2, White c)
    (h3 : ∀ p ∈ ps.dropLast, p.2 ≠ []) :
    ∃ s', plaRun [.keyword "ob".toList (interleave lead ps)] s = .ok s' ∧
      s'.outNames = s.outNames ++ ps.map Prod.fst ∧ s'.inNames = s.inNames ∧
      s'.mgrNames = s.mgrNames ∧ s'.outputs = s.outputs ∧ s'.bddVars = s.bddVars :=
  ⟨_, rfl, C74_split lead ps s.outNames h1 h2 h3, rfl, rfl, rfl, rfl⟩

/-- A second `.ilb` line (or a caller's vector that is not empty) gives the manager the earlier names
again: variables are then named wrongly. -/
theorem C74_second_line (lead : List Char) (ps : List (List Char × List Char)) (s : PlaState m)
    (h1 : ∀ c ∈ lead, White c)
    (h2 : ∀ p ∈ ps, p.1 ≠ [] ∧ (∀ c ∈ p.1, ¬ White c) ∧ ∀ c ∈ p.2, White c)
    (h3 : ∀ p ∈ ps.dropLast, p.2 ≠ []) :
    ∃ s', plaRun [.keyword "ilb".toList (interleave lead ps)] s = .ok s' ∧
      s'.inNames = s.inNames ++ ps.map Prod.fst ∧
      s'.mgrNames = s.mgrNames ++ s.inNames ++ ps.map Prod.fst := by
  have := C74_split lead ps s.inNames h1 h2 h3
  refine ⟨_, rfl, this, ?_⟩
  show s.mgrNames ++ split (interleave lead ps) s.inNames = _
  rw [this, List.append_assoc]

example : split " a  b\tc ".toList [] = ["a".toList, "b".toList, "c".toList] := by decide

example : interleave " ".toList [("a".toList, "  ".toList), ("b".toList, "\t".toList), ("c".toList, " ".toList)] =
    " a  b\tc ".toList := by decide

/-! ## C67 AIG files -/

/-- For a well formed file the outputs are the functions of the output literals: at every input they
have the value the equations of the circuit give to them.  Outputs that are not reported are the
literal 0. -/
theorem C67_circuit (asserts : Bool) (vs ni l no a : Nat) (es : List AigEvent)
    (hvs : 2 * vs + 2 ≤ 2 ^ 32) (hb : AigBody vs ni no [] es)
    (ho : ∀ j < no, aigOutput j es / 2 = 0 ∨ aigOutput j es / 2 ∈ aigDeclared es) :
    ∃ s : AigState m, aigRun asserts (.header vs ni l no a :: es) {} = .ok s ∧
      ∃ outs, getOutputs s = .ok outs ∧ outs.length = no ∧
        ∀ (j : Nat) (f : BDD m), outs[j]? = some f →
          ∀ x σ, AigValues es x σ → f.eval x = σ (aigOutput j es) := by
  obtain ⟨s0, g1, g2, g3, g4⟩ := onHeader_spec (m := m) es (ni := ni) (no := no) (a := a) hvs
  obtain ⟨s, ds, r1, r2, r3, r4, r5⟩ := aigRun_ok asserts hvs es es [] s0 (fun _ h => h) g2 g3 hb
  have hout : ∀ j, outLit j = fun | .output i l => if i = j then some l else none | _ => none := by
    intro j; funext e; cases e <;> rfl
  have hidx : ∀ j < no, s.outputIndices[j]? = some (aigOutput j es) := by
    intro j hj
    rw [r5 j 0 (by rw [g4, List.getElem?_replicate, if_pos hj]), hout]
    rfl
  have hall : ∀ o ∈ s.outputIndices, o / 2 = 0 ∨ o / 2 ∈ ds := by
    intro o hmem
    obtain ⟨j, hj, rfl⟩ := List.mem_iff_getElem.mp hmem
    have hj' : j < no := by rw [← r2.idx]; exact hj
    have e := hidx j hj'
    rw [List.getElem?_eq_getElem hj] at e
    rw [Option.some.inj e, r4]
    simpa using ho j hj'
  obtain ⟨outs, o1, o2, o3⟩ := outputsLoop_ok s.outputIndices s.literals r3 hall
  refine ⟨s, ?_, outs, o1, by rw [o2, r2.idx], ?_⟩
  · rw [aigRun]
    show (onHeader vs ni no a {} >>= _) = _
    rw [g1]
    exact r1
  · intro j f hf
    have hj : j < no := by
      rw [← r2.idx, ← o2]; exact lt_of_getElem? hf
    exact o3 j _ f (hidx j hj) hf

/-- The circuit equations of a well formed file have a solution at every input, and it is unique on the
declared variables: `C67_circuit` determines the outputs. -/
theorem C67_values (vs ni no : Nat) (es : List AigEvent) (hb : AigBody vs ni no [] es) (x : Asg) :
    ∃ σ, AigValues es x σ ∧ ∀ σ', AigValues es x σ' →
      ∀ l, l / 2 = 0 ∨ l / 2 ∈ aigDeclared es → σ' l = σ l := by
  obtain ⟨σ, h1, _⟩ := aigValues_exists x es [] (fun l => l % 2 = 1) (by simp)
    (fun v => by simp) hb
  refine ⟨σ, h1, fun σ' h' l hl => ?_⟩
  refine aigValues_unique es [] hb h' h1 ?_ l (by simpa using hl)
  intro l hl
  have hl0 : l / 2 = 0 := by simpa using hl
  have : l = 0 ∨ l = 1 := by omega
  rcases this with rfl | rfl
  · rw [h'.zero, h1.zero]
  · have e1 := h'.neg 0
    have e2 := h1.neg 0
    simp [h'.zero, h1.zero] at e1 e2
    rw [e1, e2]

/-- A gate with an operand that is not declared before raises `std::invalid_argument`. -/
theorem C67_undeclared_operand (asserts : Bool) (vs ni l no a : Nat) (es rest : List AigEvent)
    (hvs : 2 * vs + 2 ≤ 2 ^ 32) (hb : AigBody vs ni no [] es) (g p q : Nat) (hg : 1 ≤ g) (hg' : g ≤ vs)
    (hn : g ∉ aigDeclared es) (hp : p < 2 * vs + 2) (hq : q < 2 * vs + 2)
    (hu : ¬ (p / 2 = 0 ∨ p / 2 ∈ aigDeclared es) ∨ ¬ (q / 2 = 0 ∨ q / 2 ∈ aigDeclared es)) :
    aigRun asserts (.header vs ni l no a :: (es ++ .gate g p q :: rest)) ({} : AigState m) =
      .error .invalidArgument := by
  obtain ⟨s0, g1, g2, g3, g4⟩ := onHeader_spec (m := m) es (ni := ni) (no := no) (a := a) hvs
  obtain ⟨s, ds, r1, r2, r3, r4, r5⟩ := aigRun_ok asserts hvs es es [] s0 (fun _ h => h) g2 g3 hb
  rw [aigRun]
  show (onHeader vs ni no a {} >>= _) = _
  rw [g1]
  show aigRun asserts (es ++ .gate g p q :: rest) s0 = _
  rw [aigRun_append asserts es s0 s _ r1, aigRun]
  have hstep : aigStep asserts s (.gate g p q) = .error .invalidArgument := by
    have hg2 : g * 2 % 2 ^ 32 = 2 * g := by rw [Nat.mod_eq_of_lt (by omega)]; omega
    show onAnd asserts g p q s = _
    unfold onAnd
    have hnd : g ∉ ds := by rw [r4]; simpa using hn
    have hun : checkUnset asserts s.literals (2 * g) = .ok () := by
      unfold checkUnset
      rw [vget_ok_iff.mpr (r3.unknown g hg' (by rintro (h | h); omega; exact hnd h)).1]
      simp [check]
    rw [hg2, check_of (by rw [r2.lits]; simp; omega), check_of (by rw [r2.lits]; simp; omega), hun]
    show ((findLiteral s.literals p >>= _) : Except Fault (AigState m)) = _
    by_cases hpd : p / 2 = 0 ∨ p / 2 ∈ ds
    · obtain ⟨b, ls1, f1, t1, _⟩ := r3.find hpd
      rw [f1]
      show ((findLiteral ls1 q >>= _) : Except Fault (AigState m)) = _
      rw [t1.find_unknown hq ?_]
      · rfl
      · intro hqd
        rcases hu with hu | hu
        · exact hu (hpd.imp_right (fun h => by simpa using (r4 _).mp h))
        · exact hu (hqd.imp_right (fun h => by simpa using (r4 _).mp h))
    · rw [r3.find_unknown hp hpd]
      rfl
  rw [hstep]
  rfl

/-- So does `get_outputs` for an output whose literal is not declared by then. -/
theorem C67_undeclared_output (asserts : Bool) (vs ni l no a : Nat) (es : List AigEvent)
    (hvs : 2 * vs + 2 ≤ 2 ^ 32) (hb : AigBody vs ni no [] es) (j : Nat) (hj : j < no)
    (hu : ¬ (aigOutput j es / 2 = 0 ∨ aigOutput j es / 2 ∈ aigDeclared es)) :
    ∃ s : AigState m, aigRun asserts (.header vs ni l no a :: es) {} = .ok s ∧
      getOutputs s = .error .invalidArgument := by
  obtain ⟨s0, g1, g2, g3, g4⟩ := onHeader_spec (m := m) es (ni := ni) (no := no) (a := a) hvs
  obtain ⟨s, ds, r1, r2, r3, r4, r5⟩ := aigRun_ok asserts hvs es es [] s0 (fun _ h => h) g2 g3 hb
  have hout : ∀ j, outLit j = fun | .output i l => if i = j then some l else none | _ => none := by
    intro j; funext e; cases e <;> rfl
  have hidx : ∀ j < no, s.outputIndices[j]? = some (aigOutput j es) := by
    intro j hj
    rw [r5 j 0 (by rw [g4, List.getElem?_replicate, if_pos hj]), hout]
    rfl
  have hlt : ∀ (es : List AigEvent) (ds : List Nat), AigBody vs ni no ds es → ∀ i l,
      .output i l ∈ es → l < 2 * vs + 2 := by
    intro es
    induction es with
    | nil => intro ds _ i l h; cases h
    | cons e es ih =>
      intro ds hb i l hm
      rcases List.mem_cons.mp hm with hm | hm'
      · cases hm; exact hb.2.1
      · cases e with
        | input => exact ih _ hb.2.2.2.2.2 i l hm'
        | gate => exact ih _ hb.2.2.2.2.2 i l hm'
        | output => exact ih _ hb.2.2 i l hm'
        | inputName => exact ih _ hb.2 i l hm'
        | outputName => exact ih _ hb.2 i l hm'
        | header => exact hb.elim
        | latch => exact hb.elim
        | badState => exact hb.elim
        | constraint => exact hb.elim
        | fairness => exact hb.elim
        | justice => exact hb.elim
  refine ⟨s, ?_, outputsLoop_unknown s.outputIndices s.literals r3 ?_ ?_⟩
  · rw [aigRun]
    show (onHeader vs ni no a {} >>= _) = _
    rw [g1]
    exact r1
  · intro o hmem
    obtain ⟨k, hk, rfl⟩ := List.mem_iff_getElem.mp hmem
    have e := hidx k (by rw [← r2.idx]; exact hk)
    rw [List.getElem?_eq_getElem hk] at e
    rw [Option.some.inj e]
    unfold aigOutput
    cases hf : es.reverse.findSome? (fun | .output i l => if i = k then some l else none | _ => none) with
    | none => simp
    | some w =>
      rw [← hout] at hf
      obtain ⟨e, he1, he2⟩ := List.exists_of_findSome?_eq_some hf
      cases e <;> simp only [outLit, reduceCtorEq] at he2
      split at he2
      · cases he2
        exact hlt es [] hb _ _ (List.mem_reverse.mp he1)
      · cases he2
  · refine ⟨_, List.mem_iff_getElem?.mpr ⟨j, hidx j hj⟩, ?_⟩
    rw [r4]
    simpa using hu

/-- The range assertion of `on_and` is off by one: the variable after the last declared one passes it,
and the next line reads beyond the table. -/
theorem C67_gate_index (asserts : Bool) (vs ni l no a p q : Nat) (hvs : 2 * (vs + 1) < 2 ^ 32)
    (hp : p ≤ 1) (hq : q ≤ 1) :
    aigRun asserts [.header vs ni l no a, .gate (vs + 1) p q] ({} : AigState m) = .error .ub := by
  obtain ⟨s0, g1, g2, g3, g4⟩ := onHeader_spec (m := m) [] (vs := vs) (ni := ni) (no := no) (a := a) (by omega)
  rw [aigRun]
  show (onHeader vs ni no a {} >>= _) = _
  rw [g1]
  show (onAnd asserts (vs + 1) p q s0 >>= _) = _
  have : onAnd asserts (vs + 1) p q s0 = .error .ub := by
    unfold onAnd
    rw [Nat.mod_eq_of_lt (by omega), check_of (by rw [g2.lits]; simp; omega),
      check_of (by rw [g2.lits]; simp; omega)]
    show ((checkUnset asserts s0.literals ((vs + 1) * 2) >>= _) : Except Fault (AigState m)) = _
    unfold checkUnset
    cases asserts with
    | true => rw [vget_error _ _ (by rw [g3.len]; omega)]; rfl
    | false =>
      show ((findLiteral s0.literals p >>= _) : Except Fault (AigState m)) = _
      obtain ⟨b, ls1, f1, t1, _⟩ := g3.find (l := p) (.inl (by omega))
      rw [f1]
      show ((findLiteral ls1 q >>= _) : Except Fault (AigState m)) = _
      obtain ⟨b2, ls2, f2, t2, _⟩ := t1.find (l := q) (.inl (by omega))
      rw [f2]
      show ((vset ls2 ((vs + 1) * 2) _ >>= _) : Except Fault (AigState m)) = _
      rw [vset_ub (by rw [t2.len]; omega)]
      rfl
  rw [this]
  rfl

/-- The negation of a literal is cached: an input literal that is reported again after its negation was
used is not the negation of its negation any more.  No assertion rejects this. -/
theorem C67_redefined_input : ∃ s : AigState m,
    aigRun true [.header 2 2 0 2 1, .input 0 2, .gate 2 3 3, .input 1 2, .output 0 2, .output 1 3] {} = .ok s ∧
      getOutputs s = .ok [.var 1, (BDD.var 0).not] := by
  exact ⟨_, rfl, rfl⟩

/-- A half adder: gates 3 = x ∧ y, 4 = ¬x ∧ ¬y, 5 = ¬3 ∧ ¬4 (the sum). -/
def halfAdder : List AigEvent :=
  [.input 0 2, .input 1 4, .output 0 10, .output 1 6, .gate 3 2 4, .gate 4 3 5, .gate 5 7 9]

example : AigBody 5 2 2 [] halfAdder ∧
    ∀ j < 2, aigOutput j halfAdder / 2 = 0 ∨ aigOutput j halfAdder / 2 ∈ aigDeclared halfAdder := by
  constructor
  · simp only [halfAdder, AigBody]
    decide
  · decide

example : (do
    let s ← aigRun (m := .id) true (.header 5 2 0 2 3 :: halfAdder) {}
    getOutputs s) = .ok [(BDD.var 0).xor (BDD.var 1), (BDD.var 0).and (BDD.var 1)] := by
  decide +kernel

/-! ## C68 name callbacks of AIG files -/

/-- The full claim is false: the index equal to the number of declared names passes the assertion and
the name is written beyond the vector. -/
theorem C68_input_name_boundary (asserts : Bool) (vs ni l no a : Nat) (es : List AigEvent) (n : List Char)
    (hvs : 2 * vs + 2 ≤ 2 ^ 32) (hb : AigBody vs ni no [] es) :
    aigRun asserts (.header vs ni l no a :: (es ++ [.inputName ni n])) ({} : AigState m) = .error .ub ∧
    aigRun asserts (.header vs ni l no a :: (es ++ [.outputName no n])) ({} : AigState m) = .error .ub := by
  obtain ⟨s0, g1, g2, g3, g4⟩ := onHeader_spec (m := m) es (ni := ni) (no := no) (a := a) hvs
  obtain ⟨s, ds, r1, r2, r3, r4, r5⟩ := aigRun_ok asserts hvs es es [] s0 (fun _ h => h) g2 g3 hb
  have hrun : ∀ fs, aigRun asserts (.header vs ni l no a :: (es ++ fs)) ({} : AigState m) =
      aigRun asserts fs s := by
    intro fs
    rw [aigRun]
    show (onHeader vs ni no a {} >>= _) = _
    rw [g1]
    exact aigRun_append asserts es s0 s fs r1
  constructor
  · rw [hrun, aigRun]
    show (onInputName asserts ni n s >>= _) = _
    unfold onInputName
    rw [check_of (by rw [r2.inputs]; simp)]
    show ((vset s.inputNames ni n >>= _) >>= _ : Except Fault (AigState m)) = _
    rw [vset_ub (by rw [r2.inNames])]
    rfl
  · rw [hrun, aigRun]
    show (onOutputName asserts no n s >>= _) = _
    unfold onOutputName
    rw [check_of (by rw [r2.outputs]; simp)]
    show ((vset s.outputNames no n >>= _) >>= _ : Except Fault (AigState m)) = _
    rw [vset_ub (by rw [r2.outNames])]
    rfl

/-- Not every index outside the declared names is rejected, even with assertions. -/
theorem C68_names_checked_false : ¬ ∀ (ni i : Nat) (n : List Char), ni ≤ i →
    aigRun true [.header 1 ni 0 0 0, .inputName i n] ({} : AigState m) = .error .assertion := by
  intro h
  have h1 := h 1 1 [] (le_refl _)
  have h2 := (C68_input_name_boundary (m := m) true 1 1 0 0 0 [] [] (by omega) trivial).1
  rw [List.nil_append] at h2
  rw [h1] at h2
  cases h2

/-- What holds: names with a declared index are stored, and beyond the boundary index the assertion
fails (or, with `NDEBUG`, the write is out of range). Missing: rejection of the boundary index. -/
theorem C68_names_partial (asserts : Bool) (vs ni l no a : Nat) (es : List AigEvent) (i : Nat)
    (n : List Char) (hvs : 2 * vs + 2 ≤ 2 ^ 32) (hb : AigBody vs ni no [] es) :
    (i < ni → ∃ s s' : AigState m, aigRun asserts (.header vs ni l no a :: es) {} = .ok s ∧
      aigRun asserts (.header vs ni l no a :: (es ++ [.inputName i n])) {} = .ok s' ∧
      s'.inputNames = s.inputNames.set i n ∧ s.inputNames.length = ni ∧ s'.outputNames = s.outputNames ∧
      s'.literals = s.literals ∧ s'.outputIndices = s.outputIndices) ∧
    (i < no → ∃ s s' : AigState m, aigRun asserts (.header vs ni l no a :: es) {} = .ok s ∧
      aigRun asserts (.header vs ni l no a :: (es ++ [.outputName i n])) {} = .ok s' ∧
      s'.outputNames = s.outputNames.set i n ∧ s.outputNames.length = no ∧ s'.inputNames = s.inputNames ∧
      s'.literals = s.literals ∧ s'.outputIndices = s.outputIndices) ∧
    (ni < i → aigRun asserts (.header vs ni l no a :: (es ++ [.inputName i n])) ({} : AigState m) =
      .error (if asserts then .assertion else .ub)) ∧
    (no < i → aigRun asserts (.header vs ni l no a :: (es ++ [.outputName i n])) ({} : AigState m) =
      .error (if asserts then .assertion else .ub)) := by
  obtain ⟨s0, g1, g2, g3, g4⟩ := onHeader_spec (m := m) es (ni := ni) (no := no) (a := a) hvs
  obtain ⟨s, ds, r1, r2, r3, r4, r5⟩ := aigRun_ok asserts hvs es es [] s0 (fun _ h => h) g2 g3 hb
  have hrun : ∀ fs, aigRun asserts (.header vs ni l no a :: (es ++ fs)) ({} : AigState m) =
      aigRun asserts fs s := by
    intro fs
    rw [aigRun]
    show (onHeader vs ni no a {} >>= _) = _
    rw [g1]
    exact aigRun_append asserts es s0 s fs r1
  have hbase : aigRun asserts (.header vs ni l no a :: es) ({} : AigState m) = .ok s := by
    have := hrun []
    rw [List.append_nil] at this
    exact this
  refine ⟨?_, ?_, ?_, ?_⟩
  · intro hi
    refine ⟨s, { s with inputNames := s.inputNames.set i n }, hbase, ?_, rfl, r2.inNames, rfl, rfl, rfl⟩
    rw [hrun, aigRun]
    show (onInputName asserts i n s >>= _) = _
    unfold onInputName
    rw [check_of (by rw [r2.inputs]; simp; omega), vset_ok (by rw [r2.inNames]; exact hi)]
    rfl
  · intro hi
    refine ⟨s, { s with outputNames := s.outputNames.set i n }, hbase, ?_, rfl, r2.outNames, rfl, rfl, rfl⟩
    rw [hrun, aigRun]
    show (onOutputName asserts i n s >>= _) = _
    unfold onOutputName
    rw [check_of (by rw [r2.outputs]; simp; omega), vset_ok (by rw [r2.outNames]; exact hi)]
    rfl
  · intro hi
    rw [hrun, aigRun]
    show (onInputName asserts i n s >>= _) = _
    unfold onInputName
    rw [r2.inputs, vset_ub (by rw [r2.inNames]; omega)]
    cases asserts with
    | true => simp [check, Nat.not_le.mpr hi, bind, Except.bind]
    | false => simp [check, bind, Except.bind]
  · intro hi
    rw [hrun, aigRun]
    show (onOutputName asserts i n s >>= _) = _
    unfold onOutputName
    rw [r2.outputs, vset_ub (by rw [r2.outNames]; omega)]
    cases asserts with
    | true => simp [check, Nat.not_le.mpr hi, bind, Except.bind]
    | false => simp [check, bind, Except.bind]

example : (aigRun (m := .id) true (.header 5 2 0 2 3 :: (halfAdder ++ [.inputName 1 "y".toList])) {}).map
    (·.inputNames) = .ok [[], "y".toList] := by decide +kernel

/-! ## C69 the class `Function` -/

/-- `&` and `&=` apply the conjunction to every bit; `&` leaves the operand alone. -/
theorem C69_and (f : AboFunction m) (b : BDD m) :
    (f.and b).1 = f ∧ (f.and b).2 = f.andAssign b ∧ (f.andAssign b).numBits = f.numBits ∧
    (f.andAssign b).isSigned = f.isSigned ∧
    ∀ i, (f.andAssign b).at_ i = (f.at_ i).map (fun o => o.and b) := by
  have hl : ∀ l : List (BDD m), AboFunction.andLoop b l = l.map (fun o => o.and b) := by
    intro l
    induction l with
    | nil => rfl
    | cons a l ih => rw [AboFunction.andLoop, ih, List.map_cons]
  refine ⟨rfl, rfl, by simp [AboFunction.numBits, AboFunction.andAssign, hl], rfl, fun i => ?_⟩
  simp only [AboFunction.at_, AboFunction.andAssign, hl, List.getElem?_map]
  cases f.value[i]? <;> rfl

theorem C69_or (f : AboFunction m) (b : BDD m) :
    (f.or b).1 = f ∧ (f.or b).2 = f.orAssign b ∧ (f.orAssign b).numBits = f.numBits ∧
    (f.orAssign b).isSigned = f.isSigned ∧
    ∀ i, (f.orAssign b).at_ i = (f.at_ i).map (fun o => o.or b) := by
  have hl : ∀ l : List (BDD m), AboFunction.orLoop b l = l.map (fun o => o.or b) := by
    intro l
    induction l with
    | nil => rfl
    | cons a l ih => rw [AboFunction.orLoop, ih, List.map_cons]
  refine ⟨rfl, rfl, by simp [AboFunction.numBits, AboFunction.orAssign, hl], rfl, fun i => ?_⟩
  simp only [AboFunction.at_, AboFunction.orAssign, hl, List.getElem?_map]
  cases f.value[i]? <;> rfl

/-- `operator[]` throws `std::out_of_range` exactly for invalid indices, and gives the bits of the
vector otherwise. -/
theorem C69_index (value : List (BDD m)) (r : NumRep) (hv : value ≠ []) (asserts : Bool) :
    ∃ f, AboFunction.new asserts value r = .ok f ∧ f.numBits = value.length ∧
      (f.isSigned = true ↔ r = .twosComplement) ∧
      (∀ i b, f.at_ i = .ok b ↔ value[i]? = some b) ∧
      ∀ i, f.at_ i = .error .outOfRange ↔ value.length ≤ i := by
  have hpos : 0 < value.length := List.length_pos_iff.mpr hv
  refine ⟨⟨value, r⟩, ?_, rfl, by simp [AboFunction.isSigned], ?_, ?_⟩
  · unfold AboFunction.new
    rw [check_of (by simpa using hpos)]
    rfl
  · intro i b
    unfold AboFunction.at_
    simp only
    cases value[i]? with
    | none => simp
    | some c => simp
  · intro i
    unfold AboFunction.at_
    simp only
    by_cases hi : i < value.length
    · rw [List.getElem?_eq_getElem hi]
      simp [hi]
    · rw [List.getElem?_eq_none (by omega)]
      simp; omega

/-- Assigning through `operator[]` changes that bit only. -/
theorem C69_assign (f : AboFunction m) (i : Nat) (b : BDD m) (hi : i < f.numBits) :
    ∃ f', f.assign i b = .ok f' ∧ f'.numBits = f.numBits ∧ f'.at_ i = .ok b ∧
      ∀ j, j ≠ i → f'.at_ j = f.at_ j := by
  have hi' : i < f.value.length := hi
  refine ⟨_, by unfold AboFunction.assign; rw [if_pos hi'], by simp [AboFunction.numBits], ?_, ?_⟩
  · simp [AboFunction.at_, hi']
  · intro j hj
    simp only [AboFunction.at_]
    rw [List.getElem?_set_ne (fun e => hj e.symm)]

/-- An empty vector fails the assertion of the constructor; without assertions it is a function of 0
bits. -/
theorem C69_empty (r : NumRep) : AboFunction.new (m := m) true [] r = .error .assertion ∧
    AboFunction.new (m := m) false [] r = .ok ⟨[], r⟩ := ⟨rfl, rfl⟩

example : ((⟨[.var 0, .one], .baseTwo⟩ : AboFunction .id).and (.var 1)).2.value =
    [(BDD.var 0).and (.var 1), .var 1] := by decide +kernel

end Verif

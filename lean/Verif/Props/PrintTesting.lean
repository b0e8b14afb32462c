import Verif.Model.PrintTesting
import Verif.Props.Testing
import Verif.Props.DotText

/-! # C119, continued: what `/repo/experiments/testing.cpp` writes -/

namespace Verif

variable {m : Mgr}

/-- The text draws two functions of three variables: the names of the functions lead to nodes from which, following the
lines according to the values of the variables, the label reached is the value of the function, and only that. -/
def DrawsTwo (t : List Char) (first second : Bool → Bool → Bool → Bool) : Prop :=
  ∃ r, readDot t = some r ∧ ∃ n n',
    (DotId.text "<<I>f&#8320;</I>>".toList, n, none) ∈ r.lines ∧
    (DotId.text "<<I>f&#8321;</I>>".toList, n', none) ∈ r.lines ∧
    ∀ val : List Char → Bool, let x := val "<I>x&#8321;</I>".toList
      let y := val "<I>x&#8322;</I>".toList
      let z := val "<I>x&#8323;</I>".toList
      ∀ b, (DotFollow r val n b ↔ first x y z = b) ∧ (DotFollow r val n' b ↔ second x y z = b)

theorem drawsTwo_text (asserts : Bool) (addr : Edge → Nat) (f g : BDD m) (ha : Addresses addr [f, g]) (first second : Bool → Bool → Bool → Bool)
    (hf : ∀ x, f.eval x = first (x 0) (x 1) (x 2)) (hg : ∀ x, g.eval x = second (x 0) (x 1) (x 2)) :
    ∃ t, dumpDotText asserts {} addr [f, g] [] [] true none = .ok t ∧ DrawsTwo t first second := by
  have hc : ({} : DotConf).Plain := ⟨by decide +kernel, by decide +kernel, by decide +kernel, by decide +kernel,
    by decide +kernel, by decide +kernel, by decide +kernel, by decide +kernel⟩
  obtain ⟨t, r, ht, hr, names, -, -, h1, -, -, -, h2⟩ := C119_graph asserts {} addr [f, g] [] [] true none hc (.inl rfl)
    (.inl rfl) (by simp) (by simp)
  obtain ⟨t', r', ht', hr', label, -, h3, -, h4⟩ := C119_draws asserts {} addr [f, g] [] [] true none hc ha (.inl rfl)
    (.inl rfl) (by simp) (by simp) (by simp)
  rw [ht] at ht'
  cases ht'
  rw [hr] at hr'
  cases hr'
  have hn : names = ["<<I>f&#8320;</I>>".toList, "<<I>f&#8321;</I>>".toList] := (h1 rfl (by norm_num)).trans
    (by change numberedNames 2 = _; decide)
  subst hn
  refine ⟨t, ht, r, hr, .text (ptrText (addr f.edge)), .text (ptrText (addr g.edge)), ?_, ?_, fun val => ?_⟩
  · exact (h2 _ _ _).mpr (.inl ⟨(_, f), List.mem_cons_self, rfl, rfl, rfl⟩)
  · exact (h2 _ _ _).mpr (.inl ⟨(_, g), List.mem_cons_of_mem _ List.mem_cons_self, rfl, rfl, rfl⟩)
  · have l0 : label 0 = "<I>x&#8321;</I>".toList := (h3 rfl 0 (by norm_num)).trans (by decide)
    have l1 : label 1 = "<I>x&#8322;</I>".toList := (h3 rfl 1 (by norm_num)).trans (by decide)
    have l2 : label 2 = "<I>x&#8323;</I>".toList := (h3 rfl 2 (by norm_num)).trans (by decide)
    intro x y z b
    have key := h4 (fun v => val (label v)) val (fun _ _ _ _ => rfl)
    have kf := key f (by simp) b
    have kg := key g (by simp) b
    rw [hf, l0, l1, l2] at kf
    rw [hg, l0, l1, l2] at kg
    exact ⟨kf, kg⟩

theorem addresses_mono {addr : Edge → Nat} {f g : List (BDD m)} (h : Addresses addr g) (hs : ∀ b ∈ f, b ∈ g) :
    Addresses addr f := fun a b ha hb => h a b
  (ha.imp_right fun ⟨c, h1, h2⟩ => ⟨c, hs c h1, h2⟩) (hb.imp_right fun ⟨c, h1, h2⟩ => ⟨c, hs c h1, h2⟩)

/-- C119. `testing` writes to the standard output, and to the file `rounded.dot` if it can be opened, a drawing of the
running example rounded up; then to the standard output, and to the file `running.dot`, one of the running example itself.
No other file changes. -/
theorem C119_testing (hm : m.Mono) (asserts : Bool) (addr : Edge → Nat) (canOpen : List Char → Bool) (files : Files)
    (ha : ∀ r f : List (BDD m), testingMain m = .ok (r, f) → Addresses addr (r ++ f)) :
    ∃ files' t1 t2, testingProgram m asserts addr canOpen files = .ok (files', t1 ++ t2) ∧
      DrawsTwo t1 (fun x y z => !x || y || !z) (fun x y z => x || !y || z) ∧
      DrawsTwo t2 (fun x y z => (!x && !y) || (!x && !z) || (!y && !z) || (x && y && z))
        (fun x y z => (x && !y) || (x && !z) || (!x && y && z)) ∧
      files' "rounded.dot".toList = (if canOpen "rounded.dot".toList then some t1 else files "rounded.dot".toList) ∧
      files' "running.dot".toList = (if canOpen "running.dot".toList then some t2 else files "running.dot".toList) ∧
      ∀ n, n ≠ "rounded.dot".toList → n ≠ "running.dot".toList → files' n = files n := by
  obtain ⟨rs, h1, h2⟩ := C81_testing hm
  have ha := ha rs runningExample h1
  obtain ⟨r1, r2, rfl⟩ : ∃ r1 r2, rs = [r1, r2] := by
    have := congrArg List.length (h2 (fun _ => false))
    simp only [bitsAt, List.length_map, List.length_cons, List.length_nil] at this
    exact List.length_eq_two.mp this
  obtain ⟨f1, f2, hfe⟩ : ∃ f1 f2 : BDD m, runningExample = [f1, f2] := ⟨_, _, rfl⟩
  have hev : ∀ x : Asg, bitsAt [f1, f2] x = [(!x 0 && !x 1) || (!x 0 && !x 2) || (!x 1 && !x 2) || (x 0 && x 1 && x 2),
      (x 0 && !x 1) || (x 0 && !x 2) || (!x 0 && x 1 && x 2)] := fun x => by
    rw [← hfe]
    simp only [bitsAt, runningExample, List.map, eval_cube, eval_cubes, List.all, List.any, BDD.eval_not, BDD.eval_var]
    cases x 0 <;> cases x 1 <;> cases x 2 <;> rfl
  have e1 : ∀ x, r1.eval x = (!x 0 || x 1 || !x 2) ∧ r2.eval x = (x 0 || !x 1 || x 2) := fun x => by
    simpa [bitsAt] using h2 x
  have e2 := fun x => by simpa only [bitsAt, List.map, List.cons.injEq, and_true] using hev x
  obtain ⟨t1, a1, a2⟩ := drawsTwo_text asserts addr r1 r2 (addresses_mono ha fun b hb => List.mem_append_left _ hb)
    (fun x y z => !x || y || !z) (fun x y z => x || !y || z) (fun x => (e1 x).1) (fun x => (e1 x).2)
  obtain ⟨t2, b1, b2⟩ := drawsTwo_text asserts addr f1 f2 (addresses_mono ha fun b hb => List.mem_append_right _ (hfe ▸ hb))
    (fun x y z => (!x && !y) || (!x && !z) || (!y && !z) || (x && y && z))
    (fun x y z => (x && !y) || (x && !z) || (!x && y && z)) (fun x => (e2 x).1) (fun x => (e2 x).2)
  obtain ⟨t, fs, c1, c2, c3, c4⟩ := C119_file asserts {} addr canOpen files [r1, r2] "rounded.dot".toList [] [] true none
    (.inl rfl) (.inl rfl)
  rw [a1] at c1
  cases c1
  obtain ⟨t, fs', d1, d2, d3, d4⟩ := C119_file asserts {} addr canOpen fs [f1, f2] "running.dot".toList [] [] true none
    (.inl rfl) (.inl rfl)
  rw [b1] at d1
  cases d1
  refine ⟨fs', t1, t2, ?_, a2, b2, ?_, ?_, fun n n1 n2 => ?_⟩
  · simp only [testingProgram, h1, hfe, a1, b1, c2, d2, bind, Except.bind]
  · rw [d4 _ (by decide), c3]
  · rw [d3, c4 _ (by decide)]
  · rw [d4 n n2, c4 n n1]

/-- Any functions can have different pointers to their nodes. -/
theorem exists_addresses (bdds : List (BDD m)) : ∃ addr, Addresses addr bdds := by
  refine ⟨fun e => ([Edge.one, Edge.zero] ++ bdds.flatMap fun f => f.edge.n.reach f.edge.neg).idxOf e, ?_⟩
  have hall : ∀ a : Edge, DrawnNode bdds a → a ∈ [Edge.one, Edge.zero] ++
      bdds.flatMap fun f => f.edge.n.reach f.edge.neg := by
    rintro ⟨neg, n⟩ (h | ⟨f, hf, h⟩)
    · cases h
      cases neg
      · exact List.mem_append_left _ List.mem_cons_self
      · exact List.mem_append_left _ (List.mem_cons_of_mem _ List.mem_cons_self)
    · exact List.mem_append_right _ (List.mem_flatMap.mpr ⟨f, hf, h⟩)
  exact fun a b ha hb h => (List.idxOf_inj (hall a ha)).mp h

/-- The functions exist, and their nodes can have different pointers. -/
example : ∃ addr, (∀ r f : List (BDD .id), testingMain .id = .ok (r, f) → Addresses addr (r ++ f)) ∧
    (∃ r f, testingMain .id = .ok (r, f)) ∧ Mgr.id.Mono := by
  obtain ⟨r, h1, -⟩ := C81_testing (m := .id) fun _ _ h => h
  obtain ⟨addr, ha⟩ := exists_addresses (r ++ runningExample)
  refine ⟨addr, fun r' f h => ?_, ⟨r, _, h1⟩, fun _ _ h => h⟩
  rw [h1] at h
  cases h
  exact ha

end Verif

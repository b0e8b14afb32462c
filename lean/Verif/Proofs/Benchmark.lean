import Verif.Model.Benchmark
import Verif.Proofs.Max
import Verif.Proofs.DumpDot
import Verif.Props.Arith
import Mathlib.Data.Set.Finite.List
import Mathlib.Data.Set.Finite.Lattice
import Mathlib.Order.Preorder.Finite

/-!
# Helper lemmas for `Model/Benchmark.lean`
-/

namespace Verif

variable {m : Mgr}

/-- What is computed from the output bits has a maximum. -/
theorem exists_isMax (f g : List (BDD m)) (φ : List Bool → List Bool → ℚ) :
    ∃ w, IsMax (fun x => φ (bitsAt f x) (bitsAt g x)) w := by
  have hfin : (Set.range (fun x : Asg => φ (bitsAt f x) (bitsAt g x))).Finite := by
    refine Set.Finite.subset (((List.finite_length_eq Bool f.length).prod
      (List.finite_length_eq Bool g.length)).image (fun p => φ p.1 p.2)) ?_
    rintro _ ⟨x, rfl⟩
    exact ⟨(bitsAt f x, bitsAt g x), by simp [bitsAt], rfl⟩
  obtain ⟨w, hw, hmax⟩ := hfin.exists_maximal ⟨_, Set.mem_range_self (fun _ => false)⟩ |>.imp (fun w h => h) |>.imp
    (fun w h => (⟨h.1, h.2⟩ : w ∈ Set.range _ ∧ _))
  obtain ⟨x, hx⟩ := hw
  refine ⟨w, ⟨x, hx⟩, fun y => ?_⟩
  by_contra hc
  exact hc (hmax (Set.mem_range_self y) (le_of_lt (not_le.mp hc)))

theorem exists_isMax_relErrAt (r : NumRep) (f g : List (BDD m)) : ∃ w, IsMax (relErrAt r f g) w := by
  cases r with
  | baseTwo =>
    exact exists_isMax f g (fun a b => ((|(uval a : Int) - uval b| : Int) : ℚ) / max 1 ((|(uval a : Int)| : Int) : ℚ))
  | twosComplement =>
    exact exists_isMax f g (fun a b => ((|tcval a - tcval b| : Int) : ℚ) / max 1 ((|tcval a| : Int) : ℚ))

/-- Vectors of equal length and value are equal. -/
theorem eq_of_uAt {f g : List (BDD m)} (hl : f.length = g.length) (h : ∀ x, uAt f x = uAt g x) : f = g := by
  apply List.ext_getElem hl
  intro i hi hj
  apply BDD.ext_eval
  intro x
  have hb : bitsAt f x = bitsAt g x := uval_inj (by simp [bitsAt, hl]) (h x)
  have := congrArg (fun l => l[i]?) hb
  simpa [bitsAt, hi, hj] using this

theorem bddAbsoluteDifference_comm (f g : List (BDD m)) :
    bddAbsoluteDifference .baseTwo f g = bddAbsoluteDifference .baseTwo g f := by
  obtain ⟨d, h1, h2, h3⟩ := C03_absolute_difference_unsigned f g
  obtain ⟨e, g1, g2, g3⟩ := C03_absolute_difference_unsigned g f
  rw [h1, g1]
  apply congrArg Except.ok
  refine eq_of_uAt (by rw [h2, g2, max_comm]) (fun x => ?_)
  have a := h3 x
  have b := g3 x
  rw [abs_sub_comm] at b
  exact_mod_cast a.trans b.symm

theorem BDD.xor_comm' (a b : BDD m) : a.xor b = b.xor a :=
  BDD.ext_eval (fun x => by simp [BDD.eval_xor, Bool.xor_comm])

/-- The collected pairs of the swapped arguments are the swapped pairs. -/
theorem approxLoop_swap (n : Nat) : ∀ (ps : List (BDD m × BDD m)) (s : Option Nat) (acc : List (BDD m × BDD m)),
    approxLoop n (ps.map Prod.swap) s (acc.map Prod.swap) =
      ((approxLoop n ps s acc).1, (approxLoop n ps s acc).2.1, (approxLoop n ps s acc).2.2.map Prod.swap)
  | [], s, acc => by simp [approxLoop]
  | (a, b) :: ps, s, acc => by
      have hc : (s = none ∧ b.edge ≠ a.edge) ↔ (s = none ∧ a.edge ≠ b.edge) := by
        constructor <;> rintro ⟨h1, h2⟩ <;> exact ⟨h1, fun h => h2 h.symm⟩
      simp only [List.map_cons, Prod.swap, approxLoop, List.length_map, hc]
      split
      · exact approxLoop_swap n ps none ((a, b) :: acc)
      · rename_i k _
        split
        · rfl
        · exact approxLoop_swap n ps (some k) ((a, b) :: acc)

theorem approximateWorstCaseError_comm (f g : List (BDD m)) (n : Int) :
    approximateWorstCaseError .baseTwo f g n = approximateWorstCaseError .baseTwo g f n := by
  by_cases h : f.length ≠ g.length ∨ n < 1
  · rw [approximateWorstCaseError, if_pos h, approximateWorstCaseError, if_pos (by
      rcases h with h | h
      · exact .inl (fun e => h e.symm)
      · exact .inr h)]
  · rw [approximateWorstCaseError, if_neg h, approximateWorstCaseError, if_neg (by
      rintro (h' | h')
      · exact h (.inl (fun e => h' e.symm))
      · exact h (.inr h'))]
    have hs : (g.zip f).reverse = (f.zip g).reverse.map Prod.swap := by
      rw [← List.zip_swap f g, List.map_reverse]
    have key := approxLoop_swap n.toNat (f.zip g).reverse none []
    simp only [List.map_nil] at key
    simp only [hs, key]
    generalize approxLoop n.toNat (f.zip g).reverse none [] = t
    obtain ⟨s, k, acc⟩ := t
    cases s with
    | none => rfl
    | some s =>
      simp only [bind, Except.bind, List.map_map]
      rw [bddAbsoluteDifference_comm (acc.map Prod.fst)]
      rfl

theorem miterLoop_comm : ∀ (f g : List (BDD m)) (acc : BDD m), f.length = g.length →
    miterLoop f g acc = miterLoop g f acc
  | [], [], _, _ => rfl
  | a :: f, b :: g, acc, h => by
      simp only [miterLoop]
      rw [BDD.xor_comm' a b]
      exact miterLoop_comm f g _ (by simpa using h)

theorem bitFlipSum_comm (n : Nat) : ∀ f g : List (BDD m), bitFlipSum n f g = bitFlipSum n g f
  | [], [] => rfl
  | [], _ :: _ => rfl
  | _ :: _, [] => rfl
  | a :: f, b :: g => by
      simp only [bitFlipSum]
      rw [BDD.xor_comm' a b, bitFlipSum_comm n f g]

theorem bitErrorSum_comm : ∀ (f g : List (BDD m)) (acc : ADD m), bitErrorSum f g acc = bitErrorSum g f acc
  | [], [], _ => rfl
  | [], _ :: _, _ => rfl
  | _ :: _, [], _ => rfl
  | a :: f, b :: g, acc => by
      simp only [bitErrorSum]
      rw [BDD.xor_comm' a b]
      exact bitErrorSum_comm f g _

theorem maxSupportSize_append (f g : List (BDD m)) : maxSupportSize (f ++ g) = maxSupportSize (g ++ f) := by
  have key : ∀ (l : List (BDD m)) (a : Nat),
      l.foldl (fun a b => max a b.supportSize) a = max a (l.foldl (fun a b => max a b.supportSize) 0) := by
    intro l
    induction l with
    | nil => intro a; simp
    | cons b l ih =>
      intro a
      simp only [List.foldl_cons]
      rw [ih, ih (max 0 _)]
      omega
  unfold maxSupportSize
  rw [List.foldl_append, List.foldl_append, key g, key f (List.foldl _ 0 g)]
  exact max_comm _ _

theorem terminalLevel_comm (f g : List (BDD m)) : terminalLevel [f, g] = terminalLevel [g, f] := by
  rw [terminalLevel_eq, terminalLevel_eq]
  have key : ∀ (l : List Nat) (a : Nat), l.foldl max a = max a (l.foldl max 0) := by
    intro l
    induction l with
    | nil => intro a; simp
    | cons b l ih =>
      intro a
      simp only [List.foldl_cons]
      rw [ih, ih (max 0 _)]
      omega
  simp only [List.flatten_cons, List.flatten_nil, List.append_nil, List.map_append, List.foldl_append]
  rw [key, key (f.map bddTop) (List.foldl max 0 (g.map bddTop))]
  exact max_comm _ _

theorem digits_ne_underscore {k : Nat} {c : Char} (hc : c ∈ Nat.toDigits 10 k) : c ≠ '_' := by
  rintro rfl
  have := Nat.isDigit_of_mem_toDigits (by norm_num) (by norm_num) hc
  revert this
  decide

/-- Two numbers followed by an underscore can be told apart. -/
theorem digits_split {a b : Nat} {s t : List Char}
    (h : Nat.toDigits 10 a ++ '_' :: s = Nat.toDigits 10 b ++ '_' :: t) : a = b ∧ s = t := by
  have key : ∀ (p q r t : List Char), (∀ c ∈ p, c ≠ '_') → (∀ c ∈ q, c ≠ '_') →
      p ++ '_' :: r = q ++ '_' :: t → p = q ∧ r = t := by
    intro p
    induction p with
    | nil =>
      intro q r t _ hq h
      cases q with
      | nil => simpa using h
      | cons c q =>
        simp only [List.nil_append, List.cons_append, List.cons.injEq] at h
        exact absurd h.1.symm (hq c (by simp))
    | cons c p ih =>
      intro q r t hp hq h
      cases q with
      | nil =>
        simp only [List.nil_append, List.cons_append, List.cons.injEq] at h
        exact absurd h.1 (hp c (by simp))
      | cons d q =>
        simp only [List.cons_append, List.cons.injEq] at h
        obtain ⟨i1, i2⟩ := ih q r t (fun c hc => hp c (by simp [hc])) (fun c hc => hq c (by simp [hc])) h.2
        exact ⟨by rw [h.1, i1], i2⟩
  obtain ⟨h1, h2⟩ := key _ _ _ _ (fun _ => digits_ne_underscore) (fun _ => digits_ne_underscore) h
  exact ⟨toDigits_inj h1, h2⟩

end Verif

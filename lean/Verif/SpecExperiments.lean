import Verif.Spec

/-! # Vocabulary for the experiments -/

namespace Verif

instance aigBodyDecidable (vs ni no : Nat) : (ds : List Nat) → (es : List AigEvent) → Decidable (AigBody vs ni no ds es)
  | _, [] => .isTrue trivial
  | ds, .input i l :: es => have := aigBodyDecidable vs ni no (l / 2 :: ds) es; by unfold AigBody; infer_instance
  | ds, .gate g l r :: es => have := aigBodyDecidable vs ni no (g :: ds) es; by unfold AigBody; infer_instance
  | ds, .output i l :: es => have := aigBodyDecidable vs ni no ds es; by unfold AigBody; infer_instance
  | ds, .inputName i _ :: es => have := aigBodyDecidable vs ni no ds es; by unfold AigBody; infer_instance
  | ds, .outputName i _ :: es => have := aigBodyDecidable vs ni no ds es; by unfold AigBody; infer_instance
  | _, .header .. :: _ | _, .latch :: _ | _, .badState :: _ | _, .constraint :: _ | _, .fairness :: _
  | _, .justice :: _ => .isFalse id

/-- The file at `path` can be read and is a well formed circuit with `ni` inputs and `no` outputs; `es` are the parts
after the header. -/
def CircuitFile (files : String → List AigEvent × Bool) (path : String) (ni no : Nat) (es : List AigEvent) : Prop :=
  ∃ vs l a, 2 * vs + 2 ≤ 2 ^ 32 ∧ AigBody vs ni no [] es ∧
    (∀ j < no, aigOutput j es / 2 = 0 ∨ aigOutput j es / 2 ∈ aigDeclared es) ∧
    files path = (.header vs ni l no a :: es, true)

/-- `f` are the outputs of the circuit. -/
def IsCircuit {m : Mgr} (es : List AigEvent) (no : Nat) (f : List (BDD m)) : Prop :=
  f.length = no ∧ ∀ (j : Nat) (b : BDD m), f[j]? = some b → ∀ x σ, AigValues es x σ → b.eval x = σ (aigOutput j es)

/-- `q` is a value of type `float` (IEEE binary32). -/
def IsFloat (q : ℚ) : Prop :=
  ∃ k e : ℤ, |k| < 2 ^ 24 ∧ -149 ≤ e ∧ e ≤ 104 ∧ q = k * (2 : ℚ) ^ e

/-- `fl` converts to a nearest `float`. -/
def FloatConversion (fl : ℚ → ℚ) : Prop :=
  ∀ x, |x| ≤ 2 ^ 100 → IsFloat (fl x) ∧ ∀ y, IsFloat y → |fl x - x| ≤ |y - x|

/-- The error rate and the average-case error computed for `g` are close to the true ones, and equal to them for small
functions. -/
structure NearErrors {m : Mgr} (N : Nat) (both : Bool) (f g : List (BDD m)) (er ace : ℚ) : Prop where
  rate : |er - mean N (fun x => if bitsAt f x = bitsAt g x then 0 else 1)| ≤
    N / 2 ^ 52 * mean N (fun x => if bitsAt f x = bitsAt g x then 0 else 1)
  exact : N ≤ 53 → er = mean N (fun x => if bitsAt f x = bitsAt g x then 0 else 1)
  rate0 : 0 ≤ er
  rate1 : er ≤ 1
  avg : both = true → |ace - mean N (absErrAt f g)| ≤ (N + f.length + 2) / 2 ^ 52 * mean N (absErrAt f g)
  avgExact : both = true → N + f.length ≤ 53 → ace = mean N (absErrAt f g)
  avg0 : 0 ≤ ace
  avg1 : ace ≤ 2 ^ 300
  zero : both = false → ace = 0

end Verif

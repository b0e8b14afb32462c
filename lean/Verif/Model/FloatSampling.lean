import Verif.Model.FloatMetrics

/-!
# Sampling the error rate, with `double`s

`error_rate_sampling` and `error_rate_efficient_sampling` with every operation on `double`s rounded by `rnd`; the same
code with exact numbers is in `Verif/Model/Metrics.lean`. Counts of samples below `2 ^ 53` are `double`s.
-/

namespace Verif

variable {m : Mgr}

/-- `error_rate_sampling`, `/repo/src/error_metrics/error_rate.cpp:31-64`, with rounding in line 63. -/
def errorRateSamplingF (rnd : ℚ → ℚ) (f fHat : List (BDD m)) (readSize : Nat) (samples : Int)
    (rs : Nat → Nat → Nat) : Except Fault ℚ :=
  if f.length ≠ fHat.length then .error .assertion
  else if samples ≥ 2 ^ 31 then .error .ub
  else do
    let e ← samplingLoop (xorDiff f fHat) readSize rs 0 samples.toNat
    let q ← fdiv (rnd e) (rnd samples)
    .ok (rnd q)

/-- `percentage`, `/repo/src/error_metrics/error_rate.cpp:85-89`, with `n = terminal_level - 1`. -/
def activationF (rnd : ℚ → ℚ) (n : Nat) (d : BDD m) : ℚ := rnd (countMintermF rnd d n / 2 ^ n)

/-- `maximum_rate += percentage`, `/repo/src/error_metrics/error_rate.cpp:91`. -/
def sumF (rnd : ℚ → ℚ) : ℚ → List ℚ → ℚ
  | s, [] => s
  | s, p :: ps => sumF rnd (rnd (s + p)) ps

/-- The activations before sorting, `/repo/src/error_metrics/error_rate.cpp:80-92`. -/
def activationsF (rnd : ℚ → ℚ) (n : Nat) (diff : List (BDD m)) : List (Nat × ℚ) :=
  (List.range diff.length).zip (diff.map (activationF rnd n))

/-- A possible outcome of `std::sort`, `/repo/src/error_metrics/error_rate.cpp:93-97`. -/
def SortedActsF (rnd : ℚ → ℚ) (n : Nat) (diff : List (BDD m)) (acts : List (Nat × ℚ)) : Prop :=
  acts.Perm (activationsF rnd n diff) ∧ acts.Pairwise (fun a b => a.2 ≥ b.2)

/-- Sampling loop for one bit, `/repo/src/error_metrics/error_rate.cpp:114-133`. -/
def goodLoopF (rnd : ℚ → ℚ) (d : BDD m) (cnt : NMap ℚ) (readSize : Nat) (earlier : List (BDD m))
    (rs : Nat → Nat → Nat) : Nat → Nat → Except Fault Nat
  | _, 0 => .ok 0
  | b, k + 1 => do
      let input ← randomSatisfyingInputF rnd d cnt readSize (rs b)
      let found ← anyOne input earlier
      let rest ← goodLoopF rnd d cnt readSize earlier rs (b + 1) k
      .ok ((!found).toNat + rest)

/-- Main loop, `/repo/src/error_metrics/error_rate.cpp:99-138`, as `effLoop`. -/
def effLoopF (rnd : ℚ → ℚ) (diff : List (BDD m)) (readSize : Nat) (samples : Int) (denom : ℚ)
    (rs : Nat → Nat → Nat → Nat) : Nat → List (BDD m) → List (Nat × ℚ) → ℚ → Except Fault ℚ
  | _, _, [], rate => .ok rate
  | i, earlier, (idx, act) :: rest, rate =>
      if denom = 0 then .error .ub
      else
        let q := rnd (rnd (rnd samples * act) / denom)
        let indexSamples : Int := if 0 ≤ q then ⌊q⌋ else ⌈q⌉
        if indexSamples ≥ 2 ^ 31 ∨ indexSamples < -2 ^ 63 then .error .ub
        else do
          let d ← vget diff idx
          if indexSamples = 0 then
            effLoopF rnd diff readSize samples denom rs (i + 1) (earlier ++ [d]) rest rate
          else do
            let good ← goodLoopF rnd d (countMintermsF rnd d) readSize earlier (rs i) 0 indexSamples.toNat
            effLoopF rnd diff readSize samples denom rs (i + 1) (earlier ++ [d]) rest
              (rnd (rate + rnd (act * rnd (rnd good / rnd indexSamples))))

/-- `error_rate_efficient_sampling`, `/repo/src/error_metrics/error_rate.cpp:66-141`, where `acts` is the sorted list of
activations. -/
def errorRateEfficientSamplingF (rnd : ℚ → ℚ) (f fHat : List (BDD m)) (readSize : Nat) (samples : Int)
    (acts : List (Nat × ℚ)) (rs : Nat → Nat → Nat → Nat) : Except Fault ℚ :=
  if f.length ≠ fHat.length then .error .assertion
  else
    let diff := xorDiff f fHat
    match acts with
    | [] => .error .ub
    | (idx0, act0) :: rest =>
      if readSize = 0 then (if rest = [] then .ok 0 else .error .ub)
      else if readSize > 1024 then .error .nonFinite
      else do
        let maximumRate := sumF rnd 0 (diff.map (activationF rnd (readSize - 1)))
        let d0 ← vget diff idx0
        let rate ← effLoopF rnd diff readSize samples (rnd (maximumRate - act0)) rs 1 [d0] rest act0
        .ok (min 1 rate)

end Verif

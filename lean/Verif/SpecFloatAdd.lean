import Verif.Model.FloatAdd

/-! # Tables of constants in which whole numbers stand apart; runs of metrics in one manager -/

namespace Verif

/-- No constant of the table is close to a whole number without being it. -/
def CTab.Sep (eps : ℚ) (s : CTab) : Prop := ∀ r ∈ s.consts, ∀ z : ℤ, |r - z| < eps → r = z

/-- A call of one of the metrics that build ADDs. -/
inductive AddCall (m : Mgr)
  | worstCase (r : NumRep) (f g : List (BDD m))
  | average (r : NumRep) (f g : List (BDD m))
  | meanSquared (r : NumRep) (f g : List (BDD m))
  | errorRate (f g : List (BDD m))
  | bitFlip (f g : List (BDD m))
  | bitFlipAdd (f g : List (BDD m))
  | averageBitFlip (f g : List (BDD m))
  | wcre (r : NumRep) (f g : List (BDD m))
  | acre (r : NumRep) (f g : List (BDD m))

variable {m : Mgr}

/-- The table of constants after the call. -/
def AddCall.run (A : AddEnv) (dec : ℚ → ℚ) (s : CTab) : AddCall m → Except Fault CTab
  | .worstCase r f g => (worstCaseErrorAddE A r f g s).map Prod.snd
  | .average r f g => (averageCaseErrorAddE A dec r f g s).map Prod.snd
  | .meanSquared r f g => (meanSquaredErrorAddE A dec r f g s).map Prod.snd
  | .errorRate f g => (errorRateAddE A f g s).map Prod.snd
  | .bitFlip f g => (worstCaseBitFlipErrorE A f g s).map Prod.snd
  | .bitFlipAdd f g => (worstCaseBitFlipErrorAddE A f g s).map Prod.snd
  | .averageBitFlip f g => (averageBitFlipErrorAddE A f g s).map Prod.snd
  | .wcre r f g => (wcreAddE A r f g s).map Prod.snd
  | .acre r f g => (acreAddE A dec r f g s).map Prod.snd

/-- The number of output bits is at most `k`. -/
def AddCall.Bits (k : Nat) : AddCall m → Prop
  | .worstCase _ f g | .average _ f g | .meanSquared _ f g | .errorRate f g | .bitFlip f g | .bitFlipAdd f g
  | .averageBitFlip f g | .wcre _ f g | .acre _ f g => f.length ≤ k ∧ g.length ≤ k

/-- Several calls in turn. -/
def runCalls (A : AddEnv) (dec : ℚ → ℚ) : List (AddCall m) → CTab → Except Fault CTab
  | [], s => .ok s
  | c :: cs, s => do
      let s' ← c.run A dec s
      runCalls A dec cs s'

end Verif

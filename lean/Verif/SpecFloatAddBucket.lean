import Verif.SpecFloatAdd
import Verif.Spec

/-! # How far a metric of the search may be off by the constants found in the manager -/

namespace Verif

/-- Three times CUDD's default `epsilon` for relative errors, whose constants are taken from the table; the other
metrics work on whole numbers. -/
def tableSlack : ErrorMetric → ℚ
  | .worstCaseRelative | .averageCaseRelative | .averageCaseRelativeAdd => 3 / 10 ^ 12
  | _ => 0

end Verif

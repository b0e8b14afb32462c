import Verif.Proofs.FloatTime
import Verif.Props.Helper

/-! # C78 times on `double`s -/

namespace Verif

variable {rnd : ℚ → ℚ}

/-- Rounding the quotient does not change the number printed: C78 holds for the time a `double` stands for. -/
theorem C78_format_time_rounded (hr : Nearest rnd) (ms : ℚ) (hms : IsDouble ms) :
    formatTimeF rnd ms = formatTime ms := by
  unfold formatTimeF formatTime
  by_cases ha : ms < 1000
  · rw [if_pos ha, if_pos ha]
  · have h1 : 1 ≤ ms := by linarith
    have e1 := toInt_round hr hms h1 1000 (by norm_num) (by norm_num)
    have e2 := toInt_round hr hms h1 60000 (by norm_num) (by norm_num)
    push_cast at e1 e2
    rw [if_neg ha, if_neg ha, e1, e2]

/-- A time just below five minutes. -/
example : ∃ rnd, Nearest rnd ∧ formatTimeF rnd (300000 - 1 / 2 ^ 34) = .ok "299 s".toList := by
  obtain ⟨rnd, hr⟩ := exists_nearest
  refine ⟨rnd, hr, ?_⟩
  rw [C78_format_time_rounded hr _ ⟨300000 * 2 ^ 34 - 1, -34, by norm_num, by norm_num, by norm_num, by norm_num⟩]
  decide +kernel

end Verif

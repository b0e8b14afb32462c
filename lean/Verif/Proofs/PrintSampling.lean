import Verif.Model.PrintSampling
import Verif.Proofs.PrintTable

/-! # Lemmas on the text of `improved_sampling` -/

namespace Verif

theorem samplingLines_eq (step : Nat → Except Fault (List Char)) : ∀ k n, n ≤ 20100 → 20000 < n + 100 * k →
    samplingLines step k n = (List.range ((20100 - n) / 100)).map fun j => step (n + 100 * j)
  | 0, n, h1, h2 => by
      rw [show (20100 - n) / 100 = 0 by omega]
      rfl
  | k + 1, n, h1, h2 => by
      unfold samplingLines
      by_cases hn : n ≤ 20000
      · rw [if_pos hn, samplingLines_eq step k (n + 100) (by omega) (by omega),
          show (20100 - n) / 100 = (20100 - (n + 100)) / 100 + 1 by omega, List.range_succ_eq_map, List.map_cons,
          List.map_map]
        congr 1
        refine List.map_congr_left fun j _ => ?_
        show step _ = step _
        congr 1
        rw [Nat.succ_eq_add_one]
        omega
      · rw [if_neg hn, show (20100 - n) / 100 = 0 by omega]
        rfl

/-- The rows of a table with semicolons. -/
theorem semi_table {α : Type} (make : α → Except Fault (List Char)) (P : α → List (List Char) → Prop) :
    ∀ l : List α, (∀ a ∈ l, ∃ fs, fs ≠ [] ∧ (∀ f ∈ fs, Plain f) ∧ make a = .ok (joined [';'] fs ++ ['\n']) ∧ P a fs) →
      ∃ text rows, printRows (l.map make) = (text, none) ∧ readTable ';' text = some rows ∧ List.Forall₂ P l rows
  | [], _ => ⟨[], [], rfl, readTable_nil _, .nil⟩
  | a :: l, h => by
      obtain ⟨fs, h1, h2, h3, h4⟩ := h a (by simp)
      obtain ⟨text, rows, i1, i2, i3⟩ := semi_table make P l fun b hb => h b (List.mem_cons_of_mem _ hb)
      refine ⟨joined [';'] fs ++ '\n' :: text, fs :: rows, ?_, readTable_semi h1 h2 i2, .cons h4 i3⟩
      rw [List.map_cons, h3, printRows, i1]
      simp

theorem Plain.after {s t : List Char} (hs : Plain s) (hne : s ≠ []) (ht : ∀ c ∈ t, c ≠ ';' ∧ c ≠ ',' ∧ c ≠ '\n') :
    Plain (s ++ t) := by
  refine ⟨fun c hc => ?_, ?_⟩
  · rcases List.mem_append.mp hc with h | h
    · exact hs.1 c h
    · exact ht c h
  · cases s with
    | nil => exact absurd rfl hne
    | cons c s =>
      have := hs.2
      rw [List.cons_append]
      by_cases hc : c = ' '
      · subst hc
        rw [List.dropWhile_cons_of_pos (by simp)] at this
        have h2 := (List.dropWhile_suffix (l := s) (· = ' ')).length_le
        rw [this] at h2
        simp at h2
      · rw [List.dropWhile_cons_of_neg (by simpa using hc)]

theorem plain_outputs (n : Nat) : Plain ("Read file: ".toList ++ natText n ++ " outputs".toList) := by
  have h1 : Plain "Read file: ".toList := by decide
  exact (h1.after (by decide) (plain_nat n).1).after (by simp) (by decide)

theorem plain_rate (q : ℚ) : Plain ("error rate: ".toList ++ formatG q) := by
  have h1 : Plain "error rate: ".toList := by decide
  exact h1.after (by decide) (plain_number q).1

end Verif

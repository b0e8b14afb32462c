import Verif.Proofs.Print
import Verif.Props.Print

/-! # Lemmas about lines of fields -/

namespace Verif

variable {rnd : ℚ → ℚ}

/-- A field: no separators, no blank in front. -/
def Plain (f : List Char) : Prop := (∀ c ∈ f, c ≠ ';' ∧ c ≠ ',' ∧ c ≠ '\n') ∧ f.dropWhile (· = ' ') = f

/-- Fields with `s` between. -/
def joined (s : List Char) : List (List Char) → List Char
  | [] => []
  | [f] => f
  | f :: g :: fs => f ++ s ++ joined s (g :: fs)

theorem joined_no {s : List Char} {c : Char} (hs : c ∉ s) : ∀ {fs : List (List Char)}, (∀ f ∈ fs, c ∉ f) → c ∉ joined s fs
  | [], _ => by simp [joined]
  | [f], h => by simpa [joined] using h
  | f :: g :: fs, h => by
      have := joined_no hs (fs := g :: fs) fun x hx => h x (List.mem_cons_of_mem _ hx)
      rw [joined, List.append_assoc, List.mem_append, List.mem_append]
      rintro (h1 | h1 | h1)
      · exact h f (by simp) h1
      · exact hs h1
      · exact this h1

theorem readFields_semi : ∀ {fs : List (List Char)}, fs ≠ [] → (∀ f ∈ fs, Plain f) →
    readFields ';' (joined [';'] fs) = fs
  | [f], _, h => by
      have hf := h f (by simp)
      rw [joined, readFields, pieces_none (fun hm => (hf.1 _ hm).1 rfl)]
      simp only [List.map_cons, List.map_nil, hf.2]
  | f :: g :: fs, _, h => by
      have hf := h f (by simp)
      have ih := readFields_semi (fs := g :: fs) (by simp) fun x hx => h x (List.mem_cons_of_mem _ hx)
      rw [joined, List.append_assoc, List.singleton_append, readFields, pieces_cons _ (fun hm => (hf.1 _ hm).1 rfl),
        List.map_cons, hf.2]
      exact congrArg (f :: ·) ih

theorem readFields_blank (s : List Char) : readFields ',' (' ' :: s) = readFields ',' s := by
  unfold readFields
  rw [pieces, if_neg (by decide)]
  cases h : pieces ',' s with
  | nil => exact absurd h (pieces_ne_nil _ _)
  | cons p ps => simp [List.dropWhile]

theorem readFields_comma : ∀ {fs : List (List Char)}, fs ≠ [] → (∀ f ∈ fs, Plain f) →
    readFields ',' (joined [',', ' '] fs) = fs
  | [f], _, h => by
      have hf := h f (by simp)
      rw [joined, readFields, pieces_none (fun hm => (hf.1 _ hm).2.1 rfl)]
      simp only [List.map_cons, List.map_nil, hf.2]
  | f :: g :: fs, _, h => by
      have hf := h f (by simp)
      have ih := readFields_comma (fs := g :: fs) (by simp) fun x hx => h x (List.mem_cons_of_mem _ hx)
      rw [joined, List.append_assoc, List.cons_append, List.cons_append, List.nil_append, readFields,
        pieces_cons _ (fun hm => (hf.1 _ hm).2.1 rfl), List.map_cons, hf.2]
      rw [← readFields_blank] at ih
      exact congrArg (f :: ·) ih

theorem readTable_nil (sep : Char) : readTable sep [] = some [] := by
  unfold readTable; rw [readLines_nil]; rfl

theorem readTable_cons {sep : Char} {l s : List Char} {t : List (List (List Char))} (h : '\n' ∉ l)
    (hs : readTable sep s = some t) : readTable sep (l ++ '\n' :: s) = some (readFields sep l :: t) := by
  unfold readTable at hs ⊢
  obtain ⟨ls, h1, h2⟩ := Option.map_eq_some_iff.mp hs
  rw [readLines_cons h h1, Option.map_some, List.map_cons, h2]

theorem readTable_semi {fs : List (List Char)} {s : List Char} {t : List (List (List Char))} (hne : fs ≠ [])
    (h : ∀ f ∈ fs, Plain f) (hs : readTable ';' s = some t) :
    readTable ';' (joined [';'] fs ++ '\n' :: s) = some (fs :: t) := by
  rw [readTable_cons (joined_no (by decide) fun f hf hm => ((h f hf).1 _ hm).2.2 rfl) hs, readFields_semi hne h]

theorem readTable_comma {fs : List (List Char)} {s : List Char} {t : List (List (List Char))} (hne : fs ≠ [])
    (h : ∀ f ∈ fs, Plain f) (hs : readTable ',' s = some t) :
    readTable ',' (joined [',', ' '] fs ++ '\n' :: s) = some (fs :: t) := by
  rw [readTable_cons (joined_no (by decide) fun f hf hm => ((h f hf).1 _ hm).2.2 rfl) hs, readFields_comma hne h]

theorem AllDigits.plain {s : List Char} (h : AllDigits s) : Plain s := by
  refine ⟨fun c hc => ?_, ?_⟩
  · have := h c hc
    refine ⟨?_, ?_, ?_⟩ <;> (rintro rfl; simp [digitVal] at this)
  · cases s with
    | nil => rfl
    | cons c t =>
      have := h c (by simp)
      rw [List.dropWhile_cons_of_neg]
      rintro h
      rw [decide_eq_true_iff] at h
      subst h
      simp [digitVal] at this

theorem plain_nat (n : Nat) : Plain (natText n) := (allDigits_toDigits n).plain

theorem readNat_natText (n : Nat) : readNat (natText n) = some n := readNat_toDigits n

theorem plain_number (q : ℚ) : Plain (formatG q) := by
  have hall := formatG_chars q
  have hb : ∀ c ∈ formatG q, c ≠ ';' ∧ c ≠ ',' ∧ c ≠ '\n' ∧ c ≠ ' ' := fun c hc => by
    refine ⟨?_, ?_, ?_, ?_⟩ <;> (rintro rfl; have := hall _ hc; revert this; unfold NumberChar; decide)
  refine ⟨fun c hc => ⟨(hb c hc).1, (hb c hc).2.1, (hb c hc).2.2.1⟩, ?_⟩
  cases hq : formatG q with
  | nil => rfl
  | cons c t =>
    have := (hb c (by rw [hq]; simp)).2.2.2
    rw [List.dropWhile_cons_of_neg]
    simpa using this

theorem Plain.ending {s t : List Char} (hs : AllDigits s) (hne : s ≠ []) (ht : ∀ c ∈ t, c ≠ ';' ∧ c ≠ ',' ∧ c ≠ '\n') :
    Plain (s ++ t) := by
  refine ⟨fun c hc => ?_, ?_⟩
  · rcases List.mem_append.mp hc with h | h
    · exact hs.plain.1 c h
    · exact ht c h
  · cases s with
    | nil => exact absurd rfl hne
    | cons c s' =>
      have := hs c (by simp)
      rw [List.cons_append, List.dropWhile_cons_of_neg]
      rintro h
      rw [decide_eq_true_iff] at h
      subst h
      simp [digitVal] at this

theorem plain_duration (n : Nat) : Plain (durationText n) := by
  unfold durationText
  split_ifs <;> exact Plain.ending (allDigits_toDigits _) (toDigits_ne_nil _) (by decide)

theorem printRows_ok : ∀ ts : List (List Char), printRows (ts.map .ok) = (ts.flatten, none)
  | [] => rfl
  | t :: ts => by rw [List.map_cons, printRows, printRows_ok ts]; rfl

theorem shows_number (q : ℚ) : Shows (formatG q) q := formatG_reads q

theorem shows_le {q b : ℚ} (hb : SixDigits b) (hq : q ≤ b) : ShowsAtMost (formatG q) b :=
  let ⟨r, h1, h2⟩ := formatG_reads q
  ⟨r, h1, h2.le hb hq⟩

/-- Also for limits that are not numbers with six digits themselves but next to one. -/
theorem shows_le_near {q q' b : ℚ} (hb : SixDigits b) (h0 : 0 < b) (hn : |q' - b| * 10 ^ 7 ≤ b) (hq : q ≤ q') :
    ShowsAtMost (formatG q) b := by
  obtain ⟨r, h1, h2⟩ := formatG_reads q
  obtain ⟨r', h3, h4⟩ := formatG_reads q'
  have e := closestSix_near hb h0 hn h4
  subst e
  exact ⟨r, h1, C120_mono q q' r r' hq h1 h3⟩

instance (f : List Char) : Decidable (Plain f) := by unfold Plain; infer_instance

theorem forall₂_getElem? {α β : Type} {P : α → β → Prop} : ∀ {l : List α} {k : List β}, List.Forall₂ P l k →
    ∀ (i : Nat) (a : α), l[i]? = some a → ∃ b, k[i]? = some b ∧ P a b
  | _, _, .nil, i, a, h => by simp at h
  | _, _, .cons (b := b) h1 h2, 0, a, h => by
      simp only [List.getElem?_cons_zero, Option.some.injEq] at h
      subst h
      exact ⟨b, rfl, h1⟩
  | _, _, .cons h1 h2, i + 1, a, h => forall₂_getElem? h2 i a (by simpa using h)

/-- The rows of a table with commas. -/
theorem comma_rows {α : Type} (make : α → Except Fault (List Char)) (P : α → List (List Char) → Prop) :
    ∀ l : List α, (∀ a ∈ l, ∃ fs, fs ≠ [] ∧ (∀ f ∈ fs, Plain f) ∧ make a = .ok (joined [',', ' '] fs ++ ['\n']) ∧ P a fs) →
      ∃ text rows, printRows (l.map make) = (text, none) ∧ readTable ',' text = some rows ∧ List.Forall₂ P l rows
  | [], _ => ⟨[], [], rfl, readTable_nil _, .nil⟩
  | a :: l, h => by
      obtain ⟨fs, h1, h2, h3, h4⟩ := h a (by simp)
      obtain ⟨text, rows, i1, i2, i3⟩ := comma_rows make P l fun b hb => h b (List.mem_cons_of_mem _ hb)
      refine ⟨joined [',', ' '] fs ++ '\n' :: text, fs :: rows, ?_, readTable_comma h1 h2 i2, .cons h4 i3⟩
      rw [List.map_cons, h3, printRows, i1]
      simp

/-- Lines of a table with semicolons, and what follows them. -/
theorem semi_rows {α : Type} (make : α → List Char) (P : α → List (List Char) → Prop) {s : List Char}
    {t : List (List (List Char))} (hs : readTable ';' s = some t) :
    ∀ l : List α, (∀ a ∈ l, ∃ fs, fs ≠ [] ∧ (∀ f ∈ fs, Plain f) ∧ make a = joined [';'] fs ++ ['\n'] ∧ P a fs) →
      ∃ rows, readTable ';' (l.flatMap make ++ s) = some (rows ++ t) ∧ List.Forall₂ P l rows
  | [], _ => ⟨[], hs, .nil⟩
  | a :: l, h => by
      obtain ⟨fs, h1, h2, h3, h4⟩ := h a (by simp)
      obtain ⟨rows, i1, i2⟩ := semi_rows make P hs l fun b hb => h b (List.mem_cons_of_mem _ hb)
      refine ⟨fs :: rows, ?_, .cons h4 i2⟩
      have : (a :: l).flatMap make ++ s = joined [';'] fs ++ '\n' :: (l.flatMap make ++ s) := by
        rw [List.flatMap_cons, h3]; simp
      rw [this, readTable_semi h1 h2 i1]
      rfl

theorem common_bound {α : Type} {Q : α → Nat → Prop} : ∀ l : List α, (∀ a ∈ l, ∃ B, ∀ n, B ≤ n → Q a n) →
    ∃ B, ∀ n, B ≤ n → ∀ a ∈ l, Q a n
  | [], _ => ⟨0, fun _ _ _ h => by simp at h⟩
  | a :: l, h => by
      obtain ⟨B, hB⟩ := h a (by simp)
      obtain ⟨C, hC⟩ := common_bound l fun b hb => h b (List.mem_cons_of_mem _ hb)
      refine ⟨max B C, fun n hn b hb => ?_⟩
      rcases List.mem_cons.mp hb with rfl | hb
      · exact hB n (le_trans (le_max_left _ _) hn)
      · exact hC n (le_trans (le_max_right _ _) hn) b hb

end Verif

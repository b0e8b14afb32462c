import Verif.Model.Parsing
import Verif.Proofs.Bucket
import Mathlib.Tactic.Ring

/-! # Lemmas about the parsers -/

namespace Verif

variable {m : Mgr}

/-! ## `split` -/

theorem isSpace_iff (c : Char) : isSpace c = true ↔ White c := by
  unfold isSpace White
  simp only [Bool.or_eq_true, decide_eq_true_eq, Bool.and_eq_true, List.mem_cons, List.not_mem_nil, or_false]
  constructor
  · rintro (h | ⟨h1, h2⟩)
    · exact .inl h
    · have : ∀ n, 9 ≤ n → n ≤ 13 → c.toNat = n → c = '\t' ∨ c = '\n' ∨ c = '\x0b' ∨ c = '\x0c' ∨ c = '\r' := by
        intro n h1 h2 h
        have hc : c = Char.ofNat n := by rw [← h, Char.ofNat_toNat]
        have : n = 9 ∨ n = 10 ∨ n = 11 ∨ n = 12 ∨ n = 13 := by omega
        rcases this with rfl | rfl | rfl | rfl | rfl <;> simp [hc]
      exact .inr (this _ h1 h2 rfl)
  · rintro (rfl | rfl | rfl | rfl | rfl | rfl) <;> decide

theorem tokens_cons_word {c : Char} (h : isSpace c = false) (cs cur : List Char) :
    tokens (c :: cs) cur = tokens cs (c :: cur) := by
  cases cur <;> simp [tokens, h]

theorem tokens_cons_gap {c : Char} (h : isSpace c = true) (cs : List Char) :
    tokens (c :: cs) [] = tokens cs [] := by
  simp [tokens, h]

theorem tokens_cons_end {c : Char} (h : isSpace c = true) (cs : List Char) {cur : List Char}
    (hc : cur ≠ []) : tokens (c :: cs) cur = cur.reverse :: tokens cs [] := by
  cases cur with
  | nil => exact absurd rfl hc
  | cons a as => simp [tokens, h]

theorem tokens_word {w : List Char} (hw : ∀ c ∈ w, ¬ White c) (rest cur : List Char) :
    tokens (w ++ rest) cur = tokens rest (w.reverse ++ cur) := by
  induction w generalizing cur with
  | nil => rfl
  | cons c w ih =>
    have h : isSpace c = false := by
      rw [← Bool.not_eq_true, isSpace_iff]
      exact hw c (by simp)
    rw [List.cons_append, tokens_cons_word h, ih (fun d hd => hw d (by simp [hd]))]
    simp

theorem tokens_gap {g : List Char} (hg : ∀ c ∈ g, White c) (rest : List Char) :
    tokens (g ++ rest) [] = tokens rest [] := by
  induction g with
  | nil => rfl
  | cons c g ih =>
    have h : isSpace c = true := (isSpace_iff c).mpr (hg c (by simp))
    rw [List.cons_append, tokens_cons_gap h]
    exact ih (fun d hd => hg d (by simp [hd]))

theorem tokens_end {g cur : List Char} (hg : ∀ c ∈ g, White c) (hne : g ≠ []) (hc : cur ≠ [])
    (rest : List Char) : tokens (g ++ rest) cur = cur.reverse :: tokens rest [] := by
  cases g with
  | nil => exact absurd rfl hne
  | cons c g =>
    have h : isSpace c = true := (isSpace_iff c).mpr (hg c (by simp))
    rw [List.cons_append, tokens_cons_end h _ hc,
      tokens_gap (fun d hd => hg d (List.mem_cons_of_mem _ hd)) rest]

theorem tokens_interleave (ps : List (List Char × List Char)) :
    ∀ lead : List Char, (∀ c ∈ lead, White c) →
      (∀ p ∈ ps, p.1 ≠ [] ∧ (∀ c ∈ p.1, ¬ White c) ∧ ∀ c ∈ p.2, White c) →
      (∀ p ∈ ps.dropLast, p.2 ≠ []) →
      tokens (interleave lead ps) [] = ps.map Prod.fst := by
  induction ps with
  | nil =>
    intro lead hl _ _
    rw [interleave, ← List.append_nil lead, tokens_gap hl]
    rfl
  | cons p ps ih =>
    intro lead hl h hd
    obtain ⟨w, g⟩ := p
    obtain ⟨h1, h2, h3⟩ := h (w, g) (by simp)
    simp only at h1 h2 h3
    rw [interleave, List.append_assoc, tokens_gap hl, tokens_word h2, List.append_nil]
    have hr : w.reverse ≠ [] := by simpa using h1
    cases ps with
    | nil =>
      rw [interleave]
      by_cases hg : g = []
      · subst hg
        obtain ⟨a, as, ha⟩ := List.exists_cons_of_ne_nil hr
        simp only [List.map_cons, List.map_nil]
        rw [ha, tokens]
        · rw [← ha]; simp
        · simp
      · rw [← List.append_nil g, tokens_end h3 hg hr]
        simp [tokens]
    | cons q qs =>
      have hg : g ≠ [] := hd (w, g) (by simp)
      have hih := ih g h3 (fun p hp => h p (List.mem_cons_of_mem _ hp))
        (fun p hp => hd p (by simp only [List.dropLast_cons_cons]; exact List.mem_cons_of_mem _ hp))
      obtain ⟨w', g'⟩ := q
      rw [interleave, List.append_assoc] at hih ⊢
      rw [tokens_end h3 hg hr, List.reverse_reverse, ← tokens_gap h3, hih]
      simp

theorem interleave_exists (s : List Char) : ∃ lead ps, s = interleave lead ps ∧ (∀ c ∈ lead, White c) ∧
    (∀ p ∈ ps, p.1 ≠ [] ∧ (∀ c ∈ p.1, ¬ White c) ∧ ∀ c ∈ p.2, White c) ∧
    (∀ p ∈ ps.dropLast, p.2 ≠ []) := by
  induction s with
  | nil => exact ⟨[], [], rfl, by simp, by simp, by simp⟩
  | cons c s ih =>
    obtain ⟨lead, ps, rfl, h1, h2, h3⟩ := ih
    by_cases hc : White c
    · refine ⟨c :: lead, ps, ?_, by simpa [hc] using h1, h2, h3⟩
      cases ps with
      | nil => rfl
      | cons p ps => obtain ⟨w, g⟩ := p; simp [interleave]
    · cases lead with
      | nil =>
        cases ps with
        | nil =>
          refine ⟨[], [([c], [])], rfl, by simp, ?_, by simp⟩
          intro p hp
          rw [List.mem_singleton] at hp
          subst hp
          refine ⟨by simp, ?_, by simp⟩
          intro d hd
          rw [List.mem_singleton] at hd
          rwa [hd]
        | cons p ps =>
          obtain ⟨w, g⟩ := p
          refine ⟨[], (c :: w, g) :: ps, by simp [interleave], by simp, ?_, ?_⟩
          · intro p hp
            rcases List.mem_cons.mp hp with rfl | hp
            · obtain ⟨h4, h5, h6⟩ := h2 (w, g) (by simp)
              refine ⟨by simp, ?_, h6⟩
              intro d hd
              rcases List.mem_cons.mp hd with rfl | hd
              · exact hc
              · exact h5 d hd
            · exact h2 p (by simp [hp])
          · intro p hp
            cases ps with
            | nil => simp at hp
            | cons q qs =>
              rw [List.dropLast_cons_cons] at hp
              rcases List.mem_cons.mp hp with rfl | hp
              · exact h3 (w, g) (by simp)
              · exact h3 p (by rw [List.dropLast_cons_cons]; exact List.mem_cons_of_mem _ hp)
      | cons d ds =>
        refine ⟨[], ([c], d :: ds) :: ps, ?_, by simp, ?_, ?_⟩
        · cases ps with
          | nil => rfl
          | cons p ps => obtain ⟨w, g⟩ := p; simp [interleave]
        · intro p hp
          rcases List.mem_cons.mp hp with rfl | hp
          · refine ⟨by simp, ?_, h1⟩
            intro e he
            rw [List.mem_singleton] at he
            rwa [he]
          · exact h2 p hp
        · intro p hp
          cases ps with
          | nil => simp at hp
          | cons q qs =>
            rw [List.dropLast_cons_cons] at hp
            rcases List.mem_cons.mp hp with rfl | hp
            · simp
            · exact h3 p hp

/-! ## PLA files -/

theorem cubeStep_other {vars : List (BDD m)} {c : Char} (h0 : c ≠ '0') (h1 : c ≠ '1') (i : Nat)
    (cube : BDD m) : cubeStep vars c i cube = .ok cube := by
  unfold cubeStep
  rw [if_neg h0, if_neg h1]

theorem cubeStep_range {cols : List Nat} {c : Char} {i v : Nat} (hv : cols[i]? = some v) (cube : BDD m) :
    ∃ b, cubeStep (cols.map BDD.var) c i cube = .ok b ∧ ∀ x, b.eval x = true ↔
      cube.eval x = true ∧ (c = '0' → x v = false) ∧ (c = '1' → x v = true) := by
  have hg : vget (cols.map (BDD.var (m := m))) i = .ok (BDD.var v) := by
    rw [vget_ok_iff, List.getElem?_map, hv]; rfl
  unfold cubeStep
  by_cases h0 : c = '0'
  · rw [if_pos h0, hg]
    refine ⟨_, rfl, fun x => ?_⟩
    subst h0
    simp [BDD.eval_and, BDD.eval_not, BDD.eval_var]
  · rw [if_neg h0]
    by_cases h1 : c = '1'
    · rw [if_pos h1, hg]
      refine ⟨_, rfl, fun x => ?_⟩
      subst h1
      simp [BDD.eval_and, BDD.eval_var]
    · rw [if_neg h1]
      exact ⟨_, rfl, fun x => by simp [h0, h1]⟩

theorem cubeStep_ub {vars : List (BDD m)} {c : Char} {i : Nat} (hv : vars.length ≤ i)
    (hc : c = '0' ∨ c = '1') (cube : BDD m) : cubeStep vars c i cube = .error .ub := by
  unfold cubeStep
  rcases hc with rfl | rfl
  · rw [if_pos rfl, vget_error _ _ hv]; rfl
  · rw [if_neg (by decide), if_pos rfl, vget_error _ _ hv]; rfl

theorem cubeLoop_spec (cols : List Nat) : ∀ (cs : List Char) (i : Nat) (cube : BDD m),
    (∀ k < cs.length, cs[k]? = some '0' ∨ cs[k]? = some '1' → i + k < cols.length) →
    ∃ b, cubeLoop (cols.map BDD.var) cs i cube = .ok b ∧ ∀ x, b.eval x = true ↔
      cube.eval x = true ∧ ∀ (k v : Nat), cols[i + k]? = some v →
        (cs[k]? = some '0' → x v = false) ∧ (cs[k]? = some '1' → x v = true) := by
  intro cs
  induction cs with
  | nil => intro i cube _; exact ⟨cube, rfl, fun x => by simp⟩
  | cons c cs ih =>
    intro i cube h
    have hrest : ∀ k < cs.length, cs[k]? = some '0' ∨ cs[k]? = some '1' → i + 1 + k < cols.length := by
      intro k hk hc
      have := h (k + 1) (by simpa using hk) (by simpa using hc)
      omega
    have key : ∃ b, cubeStep (cols.map BDD.var) c i cube = .ok b ∧ ∀ x, b.eval x = true ↔
        cube.eval x = true ∧ ∀ v : Nat, cols[i]? = some v →
          (c = '0' → x v = false) ∧ (c = '1' → x v = true) := by
      cases hv : cols[i]? with
      | some v =>
        obtain ⟨b, h1, h2⟩ := cubeStep_range (c := c) hv cube
        refine ⟨b, h1, fun x => ?_⟩
        rw [h2]
        constructor
        · rintro ⟨h3, h4⟩
          refine ⟨h3, fun w hw => ?_⟩
          cases hw
          exact h4
        · rintro ⟨h3, h4⟩
          exact ⟨h3, h4 v rfl⟩
      | none =>
        have hlen : cols.length ≤ i := List.getElem?_eq_none_iff.mp hv
        have h0 : c ≠ '0' := by
          rintro rfl
          have := h 0 (by simp) (by simp)
          omega
        have h1 : c ≠ '1' := by
          rintro rfl
          have := h 0 (by simp) (by simp)
          omega
        exact ⟨cube, cubeStep_other h0 h1 i cube, fun x => by simp⟩
    obtain ⟨b, h1, h2⟩ := key
    obtain ⟨b', h3, h4⟩ := ih (i + 1) b hrest
    refine ⟨b', ?_, fun x => ?_⟩
    · rw [cubeLoop, h1]; exact h3
    · rw [h4, h2]
      constructor
      · rintro ⟨⟨h5, h6⟩, h7⟩
        refine ⟨h5, ?_⟩
        intro k v hkv
        cases k with
        | zero => simpa using h6 v (by simpa using hkv)
        | succ k =>
          simp only [List.getElem?_cons_succ]
          exact h7 k v (by rw [← hkv]; congr 1; omega)
      · rintro ⟨h5, h6⟩
        refine ⟨⟨h5, fun v hv => by simpa using h6 0 v (by simpa using hv)⟩, ?_⟩
        intro k v hkv
        have := h6 (k + 1) v (by rw [← hkv]; congr 1; omega)
        simpa only [List.getElem?_cons_succ] using this

theorem cubeLoop_ub (vars : List (BDD m)) : ∀ (cs : List Char) (i : Nat) (cube : BDD m),
    ¬ (∀ k < cs.length, cs[k]? = some '0' ∨ cs[k]? = some '1' → i + k < vars.length) →
    cubeLoop vars cs i cube = .error .ub := by
  intro cs
  induction cs with
  | nil => intro i cube h; exact absurd (by simp) h
  | cons c cs ih =>
    intro i cube h
    rw [cubeLoop]
    by_cases hc : (c = '0' ∨ c = '1') ∧ vars.length ≤ i
    · rw [cubeStep_ub hc.2 hc.1]; rfl
    · have hrest : ¬ (∀ k < cs.length, cs[k]? = some '0' ∨ cs[k]? = some '1' →
          i + 1 + k < vars.length) := by
        intro hr
        apply h
        intro k hk hck
        cases k with
        | zero =>
          by_contra hlt
          exact hc ⟨by simpa using hck, by omega⟩
        | succ k =>
          have := hr k (by simpa using hk) (by simpa using hck)
          omega
      cases hs : cubeStep vars c i cube with
      | ok b => exact ih (i + 1) b hrest
      | error e =>
        have : e = .ub := by
          unfold cubeStep at hs
          cases hg : vget vars i with
          | ok v =>
            rw [hg] at hs
            split at hs
            · cases hs
            · split at hs <;> cases hs
          | error e' =>
            have he' : e' = .ub := by
              by_cases hi : i < vars.length
              · rw [vget_eq vars i vars[i] hi] at hg; cases hg
              · rw [vget_error vars i (by omega)] at hg; cases hg; rfl
            rw [hg] at hs
            split at hs
            · cases hs; exact he'
            · split at hs
              · cases hs; exact he'
              · cases hs
        rw [this]; rfl

theorem outLoop_spec (cube : BDD m) : ∀ (cs : List Char) (i : Nat) (os : List (BDD m)),
    (∀ k < cs.length, cs[k]? = some '1' → i + k < os.length) →
    ∃ os', outLoop cube cs i os = .ok os' ∧ os'.length = os.length ∧
      ∀ (j : Nat) (o : BDD m), os[j]? = some o → ∃ o', os'[j]? = some o' ∧ ∀ x, o'.eval x = true ↔
        o.eval x = true ∨ (i ≤ j ∧ cs[j - i]? = some '1' ∧ cube.eval x = true) := by
  intro cs
  induction cs with
  | nil => intro i os _; exact ⟨os, rfl, rfl, fun j o ho => ⟨o, ho, fun x => by simp⟩⟩
  | cons c cs ih =>
    intro i os h
    have hrest : ∀ k < cs.length, cs[k]? = some '1' → i + 1 + k < os.length := by
      intro k hk hc
      have := h (k + 1) (by simpa using hk) (by simpa using hc)
      omega
    rw [outLoop]
    by_cases hc : c = '1'
    · subst hc
      have hi : i < os.length := by simpa using h 0 (by simp) (by simp)
      have hg : vget os i = .ok os[i] := (vget_ok_iff).mpr (List.getElem?_eq_getElem hi)
      obtain ⟨os', h1, h2, h3⟩ := ih (i + 1) (os.set i (os[i].or cube)) (by simpa using hrest)
      refine ⟨os', ?_, by simpa using h2, ?_⟩
      · rw [if_pos rfl, hg]; exact h1
      · intro j o ho
        by_cases hji : j = i
        · subst hji
          obtain ⟨o', h4, h5⟩ := h3 j (os[j].or cube) (by simp [hi])
          refine ⟨o', h4, fun x => ?_⟩
          have : os[j] = o := by
            rw [List.getElem?_eq_getElem hi] at ho; exact Option.some.inj ho
          rw [h5, this]
          simp [BDD.eval_or]
        · obtain ⟨o', h4, h5⟩ := h3 j o (by rw [List.getElem?_set_ne (fun e => hji e.symm)]; exact ho)
          refine ⟨o', h4, fun x => ?_⟩
          rw [h5]
          constructor
          · rintro (h6 | ⟨h6, h7, h8⟩)
            · exact .inl h6
            · refine .inr ⟨by omega, ?_, h8⟩
              rw [show j - i = (j - (i + 1)) + 1 by omega, List.getElem?_cons_succ]; exact h7
          · rintro (h6 | ⟨h6, h7, h8⟩)
            · exact .inl h6
            · refine .inr ⟨by omega, ?_, h8⟩
              rw [show j - i = (j - (i + 1)) + 1 by omega, List.getElem?_cons_succ] at h7; exact h7
    · obtain ⟨os', h1, h2, h3⟩ := ih (i + 1) os hrest
      refine ⟨os', by rw [if_neg hc]; exact h1, h2, ?_⟩
      intro j o ho
      obtain ⟨o', h4, h5⟩ := h3 j o ho
      refine ⟨o', h4, fun x => ?_⟩
      rw [h5]
      constructor
      · rintro (h6 | ⟨h6, h7, h8⟩)
        · exact .inl h6
        · refine .inr ⟨by omega, ?_, h8⟩
          rw [show j - i = (j - (i + 1)) + 1 by omega, List.getElem?_cons_succ]; exact h7
      · rintro (h6 | ⟨h6, h7, h8⟩)
        · exact .inl h6
        · by_cases hji : j = i
          · subst hji
            simp [hc] at h7
          · refine .inr ⟨by omega, ?_, h8⟩
            rw [show j - i = (j - (i + 1)) + 1 by omega, List.getElem?_cons_succ] at h7; exact h7

theorem outLoop_ub (cube : BDD m) : ∀ (cs : List Char) (i : Nat) (os : List (BDD m)),
    ¬ (∀ k < cs.length, cs[k]? = some '1' → i + k < os.length) →
    outLoop cube cs i os = .error .ub := by
  intro cs
  induction cs with
  | nil => intro i os h; exact absurd (by simp) h
  | cons c cs ih =>
    intro i os h
    rw [outLoop]
    by_cases hc : c = '1'
    · rw [if_pos hc]
      by_cases hi : i < os.length
      · rw [(vget_ok_iff).mpr (List.getElem?_eq_getElem hi)]
        refine ih (i + 1) _ ?_
        intro hr
        apply h
        intro k hk hck
        cases k with
        | zero => simpa using hi
        | succ k =>
          have := hr k (by simpa using hk) (by simpa using hck)
          simp only [List.length_set] at this
          omega
      · rw [vget_error os i (by omega)]; rfl
    · rw [if_neg hc]
      refine ih (i + 1) _ ?_
      intro hr
      apply h
      intro k hk hck
      cases k with
      | zero => simp [hc] at hck
      | succ k =>
        have := hr k (by simpa using hk) (by simpa using hck)
        omega

/-- The effect of a file on the columns, the outputs and the functions. -/
theorem plaRun_ok : ∀ (es : List PlaEvent) (cols : List Nat) (s : PlaState m),
    s.bddVars = cols.map BDD.var → PlaInRange cols.length s.outputs.length es →
    ∃ s', plaRun es s = .ok s' ∧ s'.bddVars = (cols ++ plaColumns es).map BDD.var ∧
      s'.outputs.length = s.outputs.length + plaOutputs es ∧
      ∀ (j : Nat) (o : BDD m), s'.outputs[j]? = some o → ∀ x, o.eval x = true ↔
        (∃ o₀, s.outputs[j]? = some o₀ ∧ o₀.eval x = true) ∨
        ∃ cube out, .term cube out ∈ es ∧ out[j]? = some '1' ∧ CubeAt (cols ++ plaColumns es) cube x := by
  intro es
  induction es with
  | nil =>
    intro cols s h _
    refine ⟨s, rfl, by simpa [plaColumns] using h, by simp [plaOutputs], ?_⟩
    intro j o ho x
    simp [ho]
  | cons e es ih =>
    intro cols s h hr
    cases e with
    | inputs n =>
      obtain ⟨s', h1, h2, h3, h4⟩ := ih (cols ++ List.range n) (onNumberOfInputs n s)
        (by simp [onNumberOfInputs, h]) (by simpa [PlaInRange, onNumberOfInputs] using hr)
      have hc : plaColumns (.inputs n :: es) = List.range n ++ plaColumns es := rfl
      refine ⟨s', h1, by rw [hc, ← List.append_assoc]; exact h2,
        by simpa [plaOutputs, onNumberOfInputs] using h3, ?_⟩
      intro j o ho x
      rw [h4 j o ho x, hc, ← List.append_assoc]
      simp [onNumberOfInputs]
    | outputs n =>
      obtain ⟨s', h1, h2, h3, h4⟩ := ih cols (onNumberOfOutputs n s) h
        (by simpa [PlaInRange, onNumberOfOutputs] using hr)
      have hc : plaColumns (.outputs n :: es) = plaColumns es := rfl
      refine ⟨s', h1, by rw [hc]; exact h2, ?_, ?_⟩
      · rw [h3]
        simp [onNumberOfOutputs, plaOutputs]
        omega
      · intro j o ho x
        rw [h4 j o ho x, hc]
        have : (∃ o₀, (onNumberOfOutputs n s).outputs[j]? = some o₀ ∧ o₀.eval x = true) ↔
            ∃ o₀, s.outputs[j]? = some o₀ ∧ o₀.eval x = true := by
          unfold onNumberOfOutputs
          simp only
          by_cases hj : j < s.outputs.length
          · rw [List.getElem?_append_left hj]
          · rw [List.getElem?_append_right (by omega), List.getElem?_replicate,
              List.getElem?_eq_none (by omega : s.outputs.length ≤ j)]
            constructor
            · rintro ⟨o₀, h5, h6⟩
              split at h5
              · cases h5; simp [BDD.eval_zero] at h6
              · cases h5
            · rintro ⟨o₀, h5, _⟩
              cases h5
        rw [this]
        simp
    | terms n =>
      obtain ⟨s', h1, h2, h3, h4⟩ := ih cols s h hr
      have hc : plaColumns (.terms n :: es) = plaColumns es := rfl
      refine ⟨s', h1, by rw [hc]; exact h2, by simpa [plaOutputs] using h3, ?_⟩
      intro j o ho x
      rw [h4 j o ho x, hc]
      simp
    | keyword k v =>
      have hb : (onKeyword k v s).2.bddVars = s.bddVars ∧ (onKeyword k v s).2.outputs = s.outputs := by
        unfold onKeyword
        split
        · exact ⟨rfl, rfl⟩
        · split <;> exact ⟨rfl, rfl⟩
      obtain ⟨s', h1, h2, h3, h4⟩ := ih cols (onKeyword k v s).2 (by rw [hb.1]; exact h)
        (by rw [hb.2]; exact hr)
      have hc : plaColumns (.keyword k v :: es) = plaColumns es := rfl
      refine ⟨s', h1, by rw [hc]; exact h2, by simpa [plaOutputs, hb.2] using h3, ?_⟩
      intro j o ho x
      rw [h4 j o ho x, hc, hb.2]
      simp
    | term cube out =>
      obtain ⟨hr1, hr2, hr3⟩ := hr
      obtain ⟨b, hb1, hb2⟩ := cubeLoop_spec cols cube 0 .one (by simpa using hr1)
      obtain ⟨os, ho1, ho2, ho3⟩ := outLoop_spec b out 0 s.outputs (by simpa using hr2)
      have hstep : plaStep s (.term cube out) = .ok { s with outputs := os } := by
        show onTerm cube out s = _
        unfold onTerm
        rw [h, hb1]
        show (outLoop b out 0 s.outputs >>= _) = _
        rw [ho1]
        rfl
      obtain ⟨s', h1, h2, h3, h4⟩ := ih cols { s with outputs := os } h (by rw [← ho2] at hr3; exact hr3)
      have hc : plaColumns (.term cube out :: es) = plaColumns es := rfl
      refine ⟨s', ?_, by rw [hc]; exact h2, ?_, ?_⟩
      · rw [plaRun, hstep]; exact h1
      · rw [h3]
        simp [ho2, plaOutputs]
      · intro j o ho x
        rw [h4 j o ho x, hc]
        have hcube : b.eval x = true ↔ CubeAt (cols ++ plaColumns es) cube x := by
          rw [hb2]
          simp only [BDD.eval_one, true_and, Nat.zero_add]
          constructor
          · intro h5 i v hv
            by_cases hi : i < cols.length
            · rw [List.getElem?_append_left hi] at hv
              exact h5 i v hv
            · constructor
              · intro h6
                exact absurd (hr1 i (lt_of_getElem? h6) (.inl h6)) hi
              · intro h6
                exact absurd (hr1 i (lt_of_getElem? h6) (.inr h6)) hi
          · intro h5 i v hv
            exact h5 i v (by rw [List.getElem?_append_left (lt_of_getElem? hv)]; exact hv)
        have hout : (∃ o₀, os[j]? = some o₀ ∧ o₀.eval x = true) ↔
            (∃ o₀, s.outputs[j]? = some o₀ ∧ o₀.eval x = true) ∨ (out[j]? = some '1' ∧ b.eval x = true) := by
          constructor
          · rintro ⟨o₀, h5, h6⟩
            have hj : j < s.outputs.length := by rw [← ho2]; exact lt_of_getElem? h5
            obtain ⟨o', h7, h8⟩ := ho3 j _ (List.getElem?_eq_getElem hj)
            rw [h5] at h7
            cases h7
            rcases (h8 x).mp h6 with h9 | ⟨_, h9, h10⟩
            · exact .inl ⟨_, List.getElem?_eq_getElem hj, h9⟩
            · exact .inr ⟨by simpa using h9, h10⟩
          · rintro (⟨o₀, h5, h6⟩ | ⟨h5, h6⟩)
            · obtain ⟨o', h7, h8⟩ := ho3 j _ h5
              exact ⟨o', h7, (h8 x).mpr (.inl h6)⟩
            · have hj : j < s.outputs.length := hr2 j (lt_of_getElem? h5) h5
              obtain ⟨o', h7, h8⟩ := ho3 j _ (List.getElem?_eq_getElem hj)
              exact ⟨o', h7, (h8 x).mpr (.inr ⟨by omega, by simpa using h5, h6⟩)⟩
        rw [hout, hcube]
        constructor
        · rintro ((h5 | ⟨h5, h6⟩) | ⟨c, o', h5, h6, h7⟩)
          · exact .inl h5
          · exact .inr ⟨cube, out, by simp, h5, h6⟩
          · exact .inr ⟨c, o', by simp [h5], h6, h7⟩
        · rintro (h5 | ⟨c, o', h5, h6, h7⟩)
          · exact .inl (.inl h5)
          · rcases List.mem_cons.mp h5 with h5 | h5
            · cases h5
              exact .inl (.inr ⟨h6, h7⟩)
            · exact .inr ⟨c, o', h5, h6, h7⟩

theorem plaRun_ub : ∀ (es : List PlaEvent) (cols : List Nat) (s : PlaState m),
    s.bddVars = cols.map BDD.var → ¬ PlaInRange cols.length s.outputs.length es →
    plaRun es s = .error .ub := by
  intro es
  induction es with
  | nil => intro cols s _ h; exact absurd trivial h
  | cons e es ih =>
    intro cols s h hr
    cases e with
    | inputs n =>
      exact ih (cols ++ List.range n) (onNumberOfInputs n s) (by simp [onNumberOfInputs, h])
        (by simpa [PlaInRange, onNumberOfInputs] using hr)
    | outputs n =>
      exact ih cols (onNumberOfOutputs n s) h (by simpa [PlaInRange, onNumberOfOutputs] using hr)
    | terms n => exact ih cols s h hr
    | keyword k v =>
      have hb : (onKeyword k v s).2.bddVars = s.bddVars ∧ (onKeyword k v s).2.outputs = s.outputs := by
        unfold onKeyword
        split
        · exact ⟨rfl, rfl⟩
        · split <;> exact ⟨rfl, rfl⟩
      exact ih cols (onKeyword k v s).2 (by rw [hb.1]; exact h) (by rw [hb.2]; exact hr)
    | term cube out =>
      rw [plaRun]
      show (onTerm cube out s >>= _) = _
      unfold onTerm
      by_cases hr1 : ∀ k < cube.length, cube[k]? = some '0' ∨ cube[k]? = some '1' → 0 + k < cols.length
      · obtain ⟨b, hb1, hb2⟩ := cubeLoop_spec (m := m) cols cube 0 .one hr1
        rw [show cubeLoop s.bddVars cube 0 .one = .ok b by rw [h]; exact hb1]
        show ((outLoop b out 0 s.outputs >>= _) >>= _) = _
        by_cases hr2 : ∀ k < out.length, out[k]? = some '1' → 0 + k < s.outputs.length
        · obtain ⟨os, ho1, ho2, ho3⟩ := outLoop_spec b out 0 s.outputs hr2
          rw [ho1]
          refine ih cols { s with outputs := os } h ?_
          intro hr3
          apply hr
          rw [show ({ s with outputs := os } : PlaState m).outputs = os from rfl, ho2] at hr3
          exact ⟨by simpa using hr1, by simpa using hr2, hr3⟩
        · rw [outLoop_ub b out 0 s.outputs hr2]; rfl
      · rw [cubeLoop_ub s.bddVars cube 0 .one (by rw [h]; simpa using hr1)]; rfl

/-! ## AIG files -/

/-- The table of literals after the variables `ds` have been declared. -/
structure AigTable (vs : Nat) (all : List AigEvent) (ds : List Nat) (ls : List (Option (BDD m))) : Prop where
  len : ls.length = 2 * vs + 2
  bound : ∀ v ∈ ds, v ≤ vs
  known : ∀ v, v = 0 ∨ v ∈ ds → ∃ b, ls[2 * v]? = some (some b) ∧
    ∀ x σ, AigValues all x σ → b.eval x = σ (2 * v)
  unknown : ∀ v ≤ vs, ¬ (v = 0 ∨ v ∈ ds) → ls[2 * v]? = some none ∧ ls[2 * v + 1]? = some none
  odd : ∀ v b, ls[2 * v + 1]? = some (some b) → ∀ x σ, AigValues all x σ → b.eval x = σ (2 * v + 1)

theorem AigTable.find {vs : Nat} {all : List AigEvent} {ds : List Nat} {ls : List (Option (BDD m))}
    (h : AigTable vs all ds ls) {l : Nat} (hl : l / 2 = 0 ∨ l / 2 ∈ ds) :
    ∃ b ls', findLiteral ls l = .ok (b, ls') ∧ AigTable vs all ds ls' ∧
      ∀ x σ, AigValues all x σ → b.eval x = σ l := by
  obtain ⟨b, h1, h2⟩ := h.known _ hl
  have hb : l / 2 ≤ vs := by
    rcases hl with hl | hl
    · omega
    · exact h.bound _ hl
  rcases Nat.mod_two_eq_zero_or_one l with hp | hp
  · have e : 2 * (l / 2) = l := by omega
    rw [e] at h1 h2
    refine ⟨b, ls, ?_, h, h2⟩
    unfold findLiteral
    rw [vget_ok_iff.mpr h1]
  · have e : 2 * (l / 2) + 1 = l := by omega
    have hlen : l < ls.length := by rw [h.len]; omega
    cases hv : ls[l] with
    | some b' =>
      have h3 : ls[l]? = some (some b') := by rw [List.getElem?_eq_getElem hlen, hv]
      refine ⟨b', ls, ?_, h, ?_⟩
      · unfold findLiteral
        rw [vget_ok_iff.mpr h3]
      · intro x σ hσ
        have := h.odd (l / 2) b' (by rw [e]; exact h3) x σ hσ
        rwa [e] at this
    | none =>
      have h3 : ls[l]? = some none := by rw [List.getElem?_eq_getElem hlen, hv]
      have h4 : ∀ x σ, AigValues all x σ → b.not.eval x = σ l := by
        intro x σ hσ
        have := hσ.neg (l / 2)
        rw [e] at this
        rw [BDD.eval_not, h2 x σ hσ, this]
      refine ⟨b.not, ls.set l (some b.not), ?_, ?_, h4⟩
      · unfold findLiteral
        rw [vget_ok_iff.mpr h3]
        show findInverted ls l = _
        unfold findInverted
        rw [if_pos hp, show l - 1 = 2 * (l / 2) by omega, vget_ok_iff.mpr h1]
      · refine ⟨by simpa using h.len, h.bound, ?_, ?_, ?_⟩
        · intro v hv
          obtain ⟨c, h5, h6⟩ := h.known v hv
          exact ⟨c, by rw [List.getElem?_set_ne (by omega)]; exact h5, h6⟩
        · intro v hv hn
          have hne : v ≠ l / 2 := by
            rintro rfl
            exact hn hl
          obtain ⟨h5, h6⟩ := h.unknown v hv hn
          exact ⟨by rw [List.getElem?_set_ne (by omega)]; exact h5,
            by rw [List.getElem?_set_ne (by omega)]; exact h6⟩
        · intro v c hc
          by_cases hvl : 2 * v + 1 = l
          · rw [hvl, List.getElem?_set_self hlen] at hc
            cases hc
            rw [hvl]
            exact h4
          · rw [List.getElem?_set_ne (fun e => hvl e.symm)] at hc
            exact h.odd v c hc

theorem AigTable.find_unknown {vs : Nat} {all : List AigEvent} {ds : List Nat}
    {ls : List (Option (BDD m))} (h : AigTable vs all ds ls) {l : Nat} (hb : l < 2 * vs + 2)
    (hl : ¬ (l / 2 = 0 ∨ l / 2 ∈ ds)) : findLiteral ls l = .error .invalidArgument := by
  obtain ⟨h1, h2⟩ := h.unknown _ (by omega) hl
  unfold findLiteral
  rcases Nat.mod_two_eq_zero_or_one l with hp | hp
  · rw [show 2 * (l / 2) = l by omega] at h1
    rw [vget_ok_iff.mpr h1]
    show findInverted ls l = _
    unfold findInverted
    rw [if_neg (by omega)]
  · rw [show 2 * (l / 2) + 1 = l by omega] at h2
    rw [vget_ok_iff.mpr h2]
    show findInverted ls l = _
    unfold findInverted
    rw [if_pos hp, show l - 1 = 2 * (l / 2) by omega, vget_ok_iff.mpr h1]

/-- Declaring a variable. -/
theorem AigTable.declare {vs : Nat} {all : List AigEvent} {ds : List Nat} {ls : List (Option (BDD m))}
    (h : AigTable vs all ds ls) {v : Nat} (h1 : 1 ≤ v) (hv : v ≤ vs) (hn : v ∉ ds) {b : BDD m}
    (hb : ∀ x σ, AigValues all x σ → b.eval x = σ (2 * v)) :
    AigTable vs all (v :: ds) (ls.set (2 * v) (some b)) := by
  refine ⟨by simpa using h.len, ?_, ?_, ?_, ?_⟩
  · intro w hw
    rcases List.mem_cons.mp hw with rfl | hw
    · exact hv
    · exact h.bound w hw
  · intro w hw
    by_cases hwv : w = v
    · subst hwv
      exact ⟨b, List.getElem?_set_self (by rw [h.len]; omega), hb⟩
    · have hw' : w = 0 ∨ w ∈ ds := by
        rcases hw with hw | hw
        · exact .inl hw
        · rcases List.mem_cons.mp hw with hw | hw
          · exact absurd hw hwv
          · exact .inr hw
      obtain ⟨c, h5, h6⟩ := h.known w hw'
      exact ⟨c, by rw [List.getElem?_set_ne (by omega)]; exact h5, h6⟩
  · intro w hw hnw
    have hwv : w ≠ v := by
      rintro rfl
      exact hnw (.inr (by simp))
    obtain ⟨h5, h6⟩ := h.unknown w hw (fun hc => hnw (hc.imp_right (List.mem_cons_of_mem _)))
    exact ⟨by rw [List.getElem?_set_ne (by omega)]; exact h5,
      by rw [List.getElem?_set_ne (by omega)]; exact h6⟩
  · intro w c hc
    rw [List.getElem?_set_ne (by omega)] at hc
    exact h.odd w c hc

/-- The sizes fixed by the header. -/
structure AigSizes (vs ni no : Nat) (s : AigState m) : Prop where
  lits : s.numLiterals = 2 * vs + 2
  inputs : s.numInputs = ni
  outputs : s.numOutputs = no
  idx : s.outputIndices.length = no
  inNames : s.inputNames.length = ni
  outNames : s.outputNames.length = no

theorem check_true (asserts : Bool) : check asserts true = .ok () := by
  unfold check; simp

theorem check_of {asserts c : Bool} (h : c = true) : check asserts c = .ok () := by
  rw [h]; exact check_true _

theorem vset_ok {α : Type _} {l : List α} {i : Nat} (h : i < l.length) (a : α) :
    vset l i a = .ok (l.set i a) := by
  unfold vset; rw [if_pos h]

theorem vset_ub {α : Type _} {l : List α} {i : Nat} (h : l.length ≤ i) (a : α) :
    vset l i a = .error .ub := by
  unfold vset; rw [if_neg (by omega)]

/-- The literal an event reports for output `j`. -/
def outLit (j : Nat) : AigEvent → Option Nat
  | .output i l => if i = j then some l else none
  | _ => none

/-- The state a header leaves behind in a new parser. -/
theorem onHeader_spec (all : List AigEvent) {vs ni no a : Nat} (hvs : 2 * vs + 2 ≤ 2 ^ 32) :
    ∃ s : AigState m, onHeader vs ni no a {} = .ok s ∧ AigSizes vs ni no s ∧
      AigTable vs all [] s.literals ∧ s.outputIndices = List.replicate no 0 := by
  have hn : uszt (vs * 2 + 2) = 2 * vs + 2 := by
    unfold uszt
    rw [Nat.mod_eq_of_lt (by have := Nat.pow_lt_pow_right (a := 2) (by omega) (show 32 < 64 by omega); omega)]
    omega
  unfold onHeader
  dsimp only
  rw [hn]
  have hr : vresize ([] : List (Option (BDD m))) (2 * vs + 2) none = List.replicate (2 * vs + 2) none := by
    simp [vresize]
  rw [hr, vset_ok (by simp)]
  simp only [Except.bind, bind]
  rw [vset_ok (by simp)]
  refine ⟨_, rfl, ⟨rfl, rfl, rfl, by simp [vresize], by simp [vresize], by simp [vresize]⟩, ?_, by simp [vresize]⟩
  refine ⟨by simp, by simp, ?_, ?_, ?_⟩
  · intro v hv
    have : v = 0 := by simpa using hv
    subst this
    refine ⟨BDD.zero, by simp, ?_⟩
    intro x σ hσ
    simp [hσ.zero]
  · intro v hv hn
    have h0 : v ≠ 0 := fun h => hn (.inl h)
    constructor
    · rw [List.getElem?_set_ne (by omega), List.getElem?_set_ne (by omega), List.getElem?_replicate,
        if_pos (by omega)]
    · rw [List.getElem?_set_ne (by omega), List.getElem?_set_ne (by omega), List.getElem?_replicate,
        if_pos (by omega)]
  · intro v b hb x σ hσ
    by_cases h0 : v = 0
    · subst h0
      simp at hb
      subst hb
      have := hσ.neg 0
      simp [hσ.zero] at this
      simp [this]
    · rw [List.getElem?_set_ne (by omega), List.getElem?_set_ne (by omega), List.getElem?_replicate] at hb
      split at hb <;> simp at hb

theorem aigRun_ok (asserts : Bool) {vs ni no : Nat} (hvs : 2 * vs + 2 ≤ 2 ^ 32) (all : List AigEvent) :
    ∀ (es : List AigEvent) (ds : List Nat) (s : AigState m), (∀ e ∈ es, e ∈ all) → AigSizes vs ni no s →
      AigTable vs all ds s.literals → AigBody vs ni no ds es →
      ∃ s' ds', aigRun asserts es s = .ok s' ∧ AigSizes vs ni no s' ∧ AigTable vs all ds' s'.literals ∧
        (∀ v, v ∈ ds' ↔ v ∈ ds ∨ v ∈ aigDeclared es) ∧
        ∀ j o, s.outputIndices[j]? = some o →
          s'.outputIndices[j]? = some ((es.reverse.findSome? (outLit j)).getD o) := by
  intro es
  induction es with
  | nil =>
    intro ds s _ hs ht _
    exact ⟨s, ds, rfl, hs, ht, by simp [aigDeclared], fun j o ho => by simpa using ho⟩
  | cons e es ih =>
    intro ds s hsub hs ht hb
    have hsub' : ∀ e ∈ es, e ∈ all := fun e he => hsub e (List.mem_cons_of_mem _ he)
    have hfind : ∀ j, outLit j e = none →
        ((e :: es).reverse.findSome? (outLit j)) = es.reverse.findSome? (outLit j) := by
      intro j hj
      rw [List.reverse_cons, List.findSome?_append]
      simp [hj]
    cases e with
    | input i l =>
      obtain ⟨b1, b2, b3, b4, b5, b6⟩ := hb
      have hl : 2 * (l / 2) = l := by omega
      have hval : ∀ x σ, AigValues all x σ → (BDD.var i : BDD m).eval x = σ (2 * (l / 2)) := by
        intro x σ hσ
        rw [hl, BDD.eval_var, hσ.input i l (hsub _ (by simp))]
      have ht' := ht.declare b3 b4 b5 hval
      rw [hl] at ht'
      have hstep : aigStep asserts s (.input i l) =
          .ok { s with literals := s.literals.set l (some (.var i)) } := by
        show onInput asserts i l s = _
        unfold onInput
        rw [check_of (by rw [hs.inputs]; simpa using b1), check_of (by rw [hs.lits]; simp; omega),
          vset_ok (by rw [ht.len]; omega)]
        rfl
      obtain ⟨s', ds', h1, h2, h3, h4, h5⟩ := ih (l / 2 :: ds)
        { s with literals := s.literals.set l (some (.var i)) } hsub'
        ⟨hs.lits, hs.inputs, hs.outputs, hs.idx, hs.inNames, hs.outNames⟩ ht' b6
      refine ⟨s', ds', by rw [aigRun, hstep]; exact h1, h2, h3, ?_, ?_⟩
      · intro v
        rw [h4, show aigDeclared (.input i l :: es) = l / 2 :: aigDeclared es from rfl]
        simp only [List.mem_cons]
        tauto
      · intro j o ho
        rw [hfind j rfl]
        exact h5 j o ho
    | gate g l r =>
      obtain ⟨b1, b2, b3, b4, b5, b6⟩ := hb
      have hg : g * 2 % 2 ^ 32 = 2 * g := by rw [Nat.mod_eq_of_lt (by omega)]; omega
      have hlb : l / 2 ≤ vs := by
        rcases b4 with h | h
        · omega
        · exact ht.bound _ h
      have hrb : r / 2 ≤ vs := by
        rcases b5 with h | h
        · omega
        · exact ht.bound _ h
      obtain ⟨bl, ls1, f1, t1, v1⟩ := ht.find b4
      obtain ⟨br, ls2, f2, t2, v2⟩ := t1.find b5
      have hval : ∀ x σ, AigValues all x σ → (bl.and br).eval x = σ (2 * g) := by
        intro x σ hσ
        rw [BDD.eval_and, v1 x σ hσ, v2 x σ hσ, hσ.gate g l r (hsub _ (by simp))]
      have ht' := t2.declare b1 b2 b3 hval
      have hun : checkUnset asserts s.literals (2 * g) = .ok () := by
        unfold checkUnset
        rw [vget_ok_iff.mpr (ht.unknown g b2 (by rintro (h | h); omega; exact b3 h)).1]
        simp [check]
      have hstep : aigStep asserts s (.gate g l r) =
          .ok { s with literals := ls2.set (2 * g) (some (bl.and br)) } := by
        show onAnd asserts g l r s = _
        unfold onAnd
        rw [hg, check_of (by rw [hs.lits]; simp; omega), check_of (by rw [hs.lits]; simp; omega), hun, f1]
        show ((findLiteral ls1 r >>= _) : Except Fault (AigState m)) = _
        rw [f2]
        show ((vset ls2 (2 * g) _ >>= _) : Except Fault (AigState m)) = _
        rw [vset_ok (by rw [t2.len]; omega)]
        rfl
      obtain ⟨s', ds', h1, h2, h3, h4, h5⟩ := ih (g :: ds)
        { s with literals := ls2.set (2 * g) (some (bl.and br)) } hsub'
        ⟨hs.lits, hs.inputs, hs.outputs, hs.idx, hs.inNames, hs.outNames⟩ ht' b6
      refine ⟨s', ds', by rw [aigRun, hstep]; exact h1, h2, h3, ?_, ?_⟩
      · intro v
        rw [h4, show aigDeclared (.gate g l r :: es) = g :: aigDeclared es from rfl]
        simp only [List.mem_cons]
        tauto
      · intro j o ho
        rw [hfind j rfl]
        exact h5 j o ho
    | output i l =>
      obtain ⟨b1, b2, b3⟩ := hb
      have hstep : aigStep asserts s (.output i l) =
          .ok { s with outputIndices := s.outputIndices.set i l } := by
        show onOutput asserts i l s = _
        unfold onOutput
        rw [check_of (by rw [hs.outputs]; simpa using b1), check_of (by rw [hs.lits]; simpa using b2),
          vset_ok (by rw [hs.idx]; exact b1)]
        rfl
      obtain ⟨s', ds', h1, h2, h3, h4, h5⟩ := ih ds { s with outputIndices := s.outputIndices.set i l } hsub'
        ⟨hs.lits, hs.inputs, hs.outputs, by simpa using hs.idx, hs.inNames, hs.outNames⟩ ht b3
      refine ⟨s', ds', by rw [aigRun, hstep]; exact h1, h2, h3, h4, ?_⟩
      intro j o ho
      by_cases hij : i = j
      · subst hij
        have h6 := h5 i l (List.getElem?_set_self (lt_of_getElem? ho))
        rw [h6, List.reverse_cons, List.findSome?_append]
        cases hf : es.reverse.findSome? (outLit i) with
        | none => simp [outLit]
        | some w => simp
      · rw [hfind j (by simp [outLit, hij])]
        exact h5 j o (by rw [List.getElem?_set_ne hij]; exact ho)
    | inputName i n =>
      obtain ⟨b1, b2⟩ := hb
      have hstep : aigStep asserts s (.inputName i n) =
          .ok { s with inputNames := s.inputNames.set i n } := by
        show onInputName asserts i n s = _
        unfold onInputName
        rw [check_of (by rw [hs.inputs]; simp; omega), vset_ok (by rw [hs.inNames]; exact b1)]
        rfl
      obtain ⟨s', ds', h1, h2, h3, h4, h5⟩ := ih ds { s with inputNames := s.inputNames.set i n } hsub'
        ⟨hs.lits, hs.inputs, hs.outputs, hs.idx, by simpa using hs.inNames, hs.outNames⟩ ht b2
      refine ⟨s', ds', by rw [aigRun, hstep]; exact h1, h2, h3, h4, ?_⟩
      intro j o ho
      rw [hfind j rfl]
      exact h5 j o ho
    | outputName i n =>
      obtain ⟨b1, b2⟩ := hb
      have hstep : aigStep asserts s (.outputName i n) =
          .ok { s with outputNames := s.outputNames.set i n } := by
        show onOutputName asserts i n s = _
        unfold onOutputName
        rw [check_of (by rw [hs.outputs]; simp; omega), vset_ok (by rw [hs.outNames]; exact b1)]
        rfl
      obtain ⟨s', ds', h1, h2, h3, h4, h5⟩ := ih ds { s with outputNames := s.outputNames.set i n } hsub'
        ⟨hs.lits, hs.inputs, hs.outputs, hs.idx, hs.inNames, by simpa using hs.outNames⟩ ht b2
      refine ⟨s', ds', by rw [aigRun, hstep]; exact h1, h2, h3, h4, ?_⟩
      intro j o ho
      rw [hfind j rfl]
      exact h5 j o ho
    | header => exact hb.elim
    | latch => exact hb.elim
    | badState => exact hb.elim
    | constraint => exact hb.elim
    | fairness => exact hb.elim
    | justice => exact hb.elim

theorem aigRun_append (asserts : Bool) : ∀ (es : List AigEvent) (t t' : AigState m) (fs : List AigEvent),
    aigRun asserts es t = .ok t' → aigRun asserts (es ++ fs) t = aigRun asserts fs t' := by
  intro es
  induction es with
  | nil => intro t t' fs h; cases h; rfl
  | cons e es ih =>
    intro t t' fs h
    rw [aigRun] at h
    obtain ⟨u, hu1, hu2⟩ := bind_ok h
    rw [List.cons_append, aigRun, hu1]
    exact ih u t' fs hu2

theorem outputsLoop_ok {vs : Nat} {all : List AigEvent} {ds : List Nat} :
    ∀ (os : List Nat) (ls : List (Option (BDD m))), AigTable vs all ds ls →
      (∀ o ∈ os, o / 2 = 0 ∨ o / 2 ∈ ds) →
      ∃ bs, outputsLoop os ls = .ok bs ∧ bs.length = os.length ∧
        ∀ (j o : Nat) (b : BDD m), os[j]? = some o → bs[j]? = some b →
          ∀ x σ, AigValues all x σ → b.eval x = σ o := by
  intro os
  induction os with
  | nil => intro ls _ _; exact ⟨[], rfl, rfl, by simp⟩
  | cons o os ih =>
    intro ls h ho
    obtain ⟨b, ls', f1, t1, v1⟩ := h.find (ho o (by simp))
    obtain ⟨bs, g1, g2, g3⟩ := ih ls' t1 (fun o' h' => ho o' (by simp [h']))
    refine ⟨b :: bs, ?_, by simp [g2], ?_⟩
    · rw [outputsLoop, f1]
      show ((outputsLoop os ls' >>= _) : Except Fault (List (BDD m))) = _
      rw [g1]
      rfl
    · intro j o' b' hj hb
      cases j with
      | zero =>
        simp at hj hb
        subst hj hb
        exact v1
      | succ j => exact g3 j o' b' (by simpa using hj) (by simpa using hb)

theorem outputsLoop_unknown {vs : Nat} {all : List AigEvent} {ds : List Nat} :
    ∀ (os : List Nat) (ls : List (Option (BDD m))), AigTable vs all ds ls →
      (∀ o ∈ os, o < 2 * vs + 2) → (∃ o ∈ os, ¬ (o / 2 = 0 ∨ o / 2 ∈ ds)) →
      outputsLoop os ls = .error .invalidArgument := by
  intro os
  induction os with
  | nil => intro ls _ _ h; obtain ⟨o, ho, _⟩ := h; simp at ho
  | cons o os ih =>
    intro ls h hr hu
    by_cases ho : o / 2 = 0 ∨ o / 2 ∈ ds
    · obtain ⟨b, ls', f1, t1, v1⟩ := h.find ho
      rw [outputsLoop, f1]
      show ((outputsLoop os ls' >>= _) : Except Fault (List (BDD m))) = _
      rw [ih ls' t1 (fun o' h' => hr o' (by simp [h'])) ?_]
      · rfl
      · obtain ⟨o', h1, h2⟩ := hu
        rcases List.mem_cons.mp h1 with rfl | h1
        · exact absurd ho h2
        · exact ⟨o', h1, h2⟩
    · rw [outputsLoop, h.find_unknown (hr o (by simp)) ho]
      rfl

/-- Values for the literals of the remaining file that agree with given ones on the variables declared
so far. -/
theorem aigValues_exists {vs ni no : Nat} (x : Asg) : ∀ (es : List AigEvent) (ds : List Nat) (σ₀ : Nat → Bool),
    σ₀ 0 = false → (∀ v, σ₀ (2 * v + 1) = !σ₀ (2 * v)) → AigBody vs ni no ds es →
    ∃ σ, AigValues es x σ ∧ ∀ l, (l / 2 = 0 ∨ l / 2 ∈ ds) → σ l = σ₀ l := by
  intro es
  induction es with
  | nil => intro ds σ₀ h0 hn _; exact ⟨σ₀, ⟨h0, hn, by simp, by simp⟩, fun _ _ => rfl⟩
  | cons e es ih =>
    intro ds σ₀ h0 hn hb
    have ext_ : ∀ (v : Nat) (c : Bool), 1 ≤ v →
        ∃ σ₁ : Nat → Bool, σ₁ 0 = false ∧ (∀ w, σ₁ (2 * w + 1) = !σ₁ (2 * w)) ∧ σ₁ (2 * v) = c ∧
          ∀ l, l / 2 ≠ v → σ₁ l = σ₀ l := by
      intro v c hv
      refine ⟨fun l => if l / 2 = v then (if l % 2 = 0 then c else !c) else σ₀ l, ?_, ?_, ?_, ?_⟩
      · simp only
        rw [if_neg (by omega)]; exact h0
      · intro w
        simp only
        by_cases hw : w = v
        · rw [if_pos (by omega), if_neg (by omega), if_pos (by omega), if_pos (by omega)]
        · rw [if_neg (by omega), if_neg (by omega)]; exact hn w
      · simp
      · intro l hl
        simp only
        rw [if_neg hl]
    cases e with
    | input i l =>
      obtain ⟨b1, b2, b3, b4, b5, b6⟩ := hb
      obtain ⟨σ₁, e1, e2, e3, e4⟩ := ext_ (l / 2) (x i) b3
      obtain ⟨σ, h1, h2⟩ := ih (l / 2 :: ds) σ₁ e1 e2 b6
      refine ⟨σ, ⟨h1.zero, h1.neg, ?_, ?_⟩, ?_⟩
      · intro i' l' h
        rcases List.mem_cons.mp h with h | h
        · cases h
          rw [h2 l (.inr (by simp)), show l = 2 * (l / 2) by omega, e3]
        · exact h1.input i' l' h
      · intro g l' r h
        rcases List.mem_cons.mp h with h | h
        · cases h
        · exact h1.gate g l' r h
      · intro l' hl'
        rw [h2 l' (hl'.imp_right (List.mem_cons_of_mem _))]
        refine e4 l' ?_
        rcases hl' with h | h
        · omega
        · intro e; exact b5 (e ▸ h)
    | gate g l r =>
      obtain ⟨b1, b2, b3, b4, b5, b6⟩ := hb
      obtain ⟨σ₁, e1, e2, e3, e4⟩ := ext_ g (σ₀ l && σ₀ r) b1
      obtain ⟨σ, h1, h2⟩ := ih (g :: ds) σ₁ e1 e2 b6
      have keep : ∀ l', (l' / 2 = 0 ∨ l' / 2 ∈ ds) → σ l' = σ₀ l' := by
        intro l' hl'
        rw [h2 l' (hl'.imp_right (List.mem_cons_of_mem _))]
        refine e4 l' ?_
        rcases hl' with h | h
        · omega
        · intro e; exact b3 (e ▸ h)
      refine ⟨σ, ⟨h1.zero, h1.neg, ?_, ?_⟩, keep⟩
      · intro i' l' h
        rcases List.mem_cons.mp h with h | h
        · cases h
        · exact h1.input i' l' h
      · intro g' l' r' h
        rcases List.mem_cons.mp h with h | h
        · cases h
          rw [keep l b4, keep r b5, h2 (2 * g) (.inr (by simp)), e3]
        · exact h1.gate g' l' r' h
    | output i l =>
      obtain ⟨σ, h1, h2⟩ := ih ds σ₀ h0 hn hb.2.2
      exact ⟨σ, ⟨h1.zero, h1.neg, fun i' l' h => h1.input i' l' (by simpa using h),
        fun g l' r h => h1.gate g l' r (by simpa using h)⟩, h2⟩
    | inputName i n =>
      obtain ⟨σ, h1, h2⟩ := ih ds σ₀ h0 hn hb.2
      exact ⟨σ, ⟨h1.zero, h1.neg, fun i' l' h => h1.input i' l' (by simpa using h),
        fun g l' r h => h1.gate g l' r (by simpa using h)⟩, h2⟩
    | outputName i n =>
      obtain ⟨σ, h1, h2⟩ := ih ds σ₀ h0 hn hb.2
      exact ⟨σ, ⟨h1.zero, h1.neg, fun i' l' h => h1.input i' l' (by simpa using h),
        fun g l' r h => h1.gate g l' r (by simpa using h)⟩, h2⟩
    | header => exact hb.elim
    | latch => exact hb.elim
    | badState => exact hb.elim
    | constraint => exact hb.elim
    | fairness => exact hb.elim
    | justice => exact hb.elim

/-- Values of the literals of a well formed file are determined on the declared variables. -/
theorem aigValues_unique {vs ni no : Nat} {x : Asg} {σ σ' : Nat → Bool} : ∀ (es : List AigEvent) (ds : List Nat),
    AigBody vs ni no ds es → AigValues es x σ → AigValues es x σ' →
    (∀ l, (l / 2 = 0 ∨ l / 2 ∈ ds) → σ l = σ' l) →
    ∀ l, (l / 2 = 0 ∨ l / 2 ∈ ds ∨ l / 2 ∈ aigDeclared es) → σ l = σ' l := by
  intro es
  induction es with
  | nil => intro ds _ _ _ h l hl; exact h l (by simpa [aigDeclared] using hl)
  | cons e es ih =>
    intro ds hb h h' hag l hl
    have tl : ∀ {τ}, AigValues (e :: es) x τ → AigValues es x τ := fun h =>
      ⟨h.zero, h.neg, fun i l hm => h.input i l (List.mem_cons_of_mem _ hm),
        fun g l r hm => h.gate g l r (List.mem_cons_of_mem _ hm)⟩
    have hlit : ∀ v, σ (2 * v) = σ' (2 * v) → ∀ l, l / 2 = v → σ l = σ' l := by
      intro v hv l hl
      rcases Nat.mod_two_eq_zero_or_one l with hp | hp
      · rw [show l = 2 * v by omega]; exact hv
      · rw [show l = 2 * v + 1 by omega, h.neg, h'.neg, hv]
    cases e with
    | input i l0 =>
      obtain ⟨b1, b2, b3, b4, b5, b6⟩ := hb
      have hv : σ (2 * (l0 / 2)) = σ' (2 * (l0 / 2)) := by
        rw [show 2 * (l0 / 2) = l0 by omega, h.input i l0 (by simp), h'.input i l0 (by simp)]
      refine ih (l0 / 2 :: ds) b6 (tl h) (tl h') ?_ l ?_
      · intro l1 h1
        rcases h1 with h1 | h1
        · exact hag l1 (.inl h1)
        · rcases List.mem_cons.mp h1 with h1 | h1
          · exact hlit _ hv l1 h1
          · exact hag l1 (.inr h1)
      · rw [show aigDeclared (.input i l0 :: es) = l0 / 2 :: aigDeclared es from rfl] at hl
        simp only [List.mem_cons] at hl ⊢
        tauto
    | gate g l0 r0 =>
      obtain ⟨b1, b2, b3, b4, b5, b6⟩ := hb
      have hv : σ (2 * g) = σ' (2 * g) := by
        rw [h.gate g l0 r0 (by simp), h'.gate g l0 r0 (by simp), hag l0 b4, hag r0 b5]
      refine ih (g :: ds) b6 (tl h) (tl h') ?_ l ?_
      · intro l1 h1
        rcases h1 with h1 | h1
        · exact hag l1 (.inl h1)
        · rcases List.mem_cons.mp h1 with h1 | h1
          · exact hlit _ hv l1 h1
          · exact hag l1 (.inr h1)
      · rw [show aigDeclared (.gate g l0 r0 :: es) = g :: aigDeclared es from rfl] at hl
        simp only [List.mem_cons] at hl ⊢
        tauto
    | output i l0 => exact ih ds hb.2.2 (tl h) (tl h') hag l hl
    | inputName i n => exact ih ds hb.2 (tl h) (tl h') hag l hl
    | outputName i n => exact ih ds hb.2 (tl h) (tl h') hag l hl
    | header => exact hb.elim
    | latch => exact hb.elim
    | badState => exact hb.elim
    | constraint => exact hb.elim
    | fairness => exact hb.elim
    | justice => exact hb.elim

end Verif

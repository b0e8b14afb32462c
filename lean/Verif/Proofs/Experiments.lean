import Verif.Model.Experiments
import Verif.Props.Benchmark
import Verif.Props.Helper
import Verif.Props.Nsga

namespace Verif

variable {m : Mgr}

/-! ## Loops over the outputs -/

theorem roundOutputs_spec {op : BDD m → Except Fault (BDD m)} {R : BDD m → BDD m → Prop}
    (h : ∀ b, ∃ r, op b = .ok r ∧ R b r) (f : List (BDD m)) :
    ∃ g, roundOutputs op f = .ok g ∧ List.Forall₂ R f g := by
  induction f with
  | nil => exact ⟨[], rfl, .nil⟩
  | cons b f ih =>
    obtain ⟨r, h1, h2⟩ := h b
    obtain ⟨g, h3, h4⟩ := ih
    refine ⟨r :: g, ?_, .cons h2 h4⟩
    simp only [roundOutputs, h1, h3, bind, Except.bind]

theorem roundOutputs_forall {op : BDD m → Except Fault (BDD m)} {f g : List (BDD m)}
    (h : roundOutputs op f = .ok g) : List.Forall₂ (fun b r => op b = .ok r) f g := by
  induction f generalizing g with
  | nil => cases h; exact .nil
  | cons b f ih =>
    unfold roundOutputs at h
    obtain ⟨r, h1, h⟩ := bind_ok h
    obtain ⟨rs, h2, h⟩ := bind_ok h
    cases h
    exact .cons h1 (ih h2)

theorem forall₂_mem {α β : Type _} {R : α → β → Prop} {f : List α} {g : List β} (h : List.Forall₂ R f g) {r : β}
    (hr : r ∈ g) : ∃ b ∈ f, R b r := by
  induction h with
  | nil => simp at hr
  | cons h1 _ ih =>
    rcases List.mem_cons.mp hr with rfl | hr
    · exact ⟨_, by simp, h1⟩
    · obtain ⟨b, hb, h2⟩ := ih hr
      exact ⟨b, by simp [hb], h2⟩

theorem fits_forall₂ {f g : List (BDD m)} {N : Nat} (hf : Fits N f)
    (h : List.Forall₂ (fun b r : BDD m => ∀ v ∈ r.supportIndices, v ∈ b.supportIndices) f g) : Fits N g := by
  intro r hr v hv
  obtain ⟨b, hb, h1⟩ := forall₂_mem h hr
  exact hf b hb v (h1 v hv)

theorem uAt_le_of_implies {f g : List (BDD m)}
    (h : List.Forall₂ (fun b r : BDD m => ∀ x, b.eval x = true → r.eval x = true) f g) (x : Asg) :
    uAt f x ≤ uAt g x := by
  induction h with
  | nil => exact le_refl _
  | @cons b r f g h1 _ ih =>
    rw [uAt_cons, uAt_cons]
    have := h1 x
    cases hb : b.eval x with
    | false => cases r.eval x <;> simp <;> omega
    | true => rw [this hb]; omega

/-! ## Labels -/

/-- Texts up to the first `c` can be told apart. -/
theorem char_split {c : Char} : ∀ {p q r t : List Char}, c ∉ p → c ∉ q → p ++ c :: r = q ++ c :: t → p = q ∧ r = t
  | [], [], r, t, _, _, h => by simpa using h
  | [], d :: q, r, t, _, hq, h => by
      simp only [List.nil_append, List.cons_append, List.cons.injEq] at h
      exact absurd h.1 (fun e => hq (by simp [e]))
  | d :: p, [], r, t, hp, _, h => by
      simp only [List.nil_append, List.cons_append, List.cons.injEq] at h
      exact absurd h.1.symm (fun e => hp (by simp [e]))
  | d :: p, e :: q, r, t, hp, hq, h => by
      simp only [List.cons_append, List.cons.injEq] at h
      obtain ⟨i1, i2⟩ := char_split (fun hc => hp (by simp [hc])) (fun hc => hq (by simp [hc])) h.2
      exact ⟨by rw [h.1, i1], i2⟩

theorem digits_no {c : Char} (hc : c.isDigit = false) (k : Nat) : c ∉ Nat.toDigits 10 k := by
  intro h
  have := Nat.isDigit_of_mem_toDigits (by norm_num) (by norm_num) h
  rw [hc] at this
  cases this

/-- File names have neither brackets nor spaces, and belong to one number. -/
theorem iscasFilename_chars {i : Nat} {s : String} (h : iscasFilename i = .ok s) : '(' ∉ s.toList ∧ ' ' ∉ s.toList := by
  unfold iscasFilename fileById at h
  split at h
  · cases h
  · have := vget_ok_iff.mp h
    have hm := List.mem_of_getElem? this
    simp only [List.mem_cons, List.not_mem_nil, or_false] at hm
    rcases hm with rfl | rfl | rfl | rfl | rfl | rfl | rfl | rfl | rfl | rfl | rfl <;> decide

theorem iscasFilename_inj {i j : Nat} {s : String} (hi : iscasFilename i = .ok s) (hj : iscasFilename j = .ok s) :
    i = j :=
  (C86_files_differ i j ("./iscas85/" ++ s)).1 (by rw [iscasFilepath, hi]; rfl) (by rw [iscasFilepath, hj]; rfl)

/-! ## Circuits of files -/

theorem aigBody_input {vs ni no : Nat} : ∀ (es : List AigEvent) (ds : List Nat), AigBody vs ni no ds es →
    ∀ i l, .input i l ∈ es → i < ni
  | [], _, _, i, l, h => by simp at h
  | e :: es, ds, hb, i, l, h => by
      have hrec : ∀ ds', AigBody vs ni no ds' es → .input i l ∈ es → i < ni := fun ds' hb' h' =>
        aigBody_input es ds' hb' i l h'
      cases e with
      | input i' l' =>
        obtain ⟨h1, -, -, -, -, h2⟩ := hb
        rcases List.mem_cons.mp h with h | h
        · cases h; exact h1
        · exact hrec _ h2 h
      | gate g p q => exact hrec _ hb.2.2.2.2.2 (by simpa using h)
      | output i' l' => exact hrec _ hb.2.2 (by simpa using h)
      | inputName i' n => exact hrec _ hb.2 (by simpa using h)
      | outputName i' n => exact hrec _ hb.2 (by simpa using h)
      | _ => exact absurd hb (by simp [AigBody])

theorem aigValues_agree {vs ni no : Nat} {es : List AigEvent} (hb : AigBody vs ni no [] es) {x y : Asg}
    (hxy : ∀ v, v < ni → x v = y v) {σ : Nat → Bool} (h : AigValues es x σ) : AigValues es y σ :=
  ⟨h.zero, h.neg, fun i l hi => by rw [h.input i l hi, hxy i (aigBody_input es [] hb i l hi)], h.gate⟩

theorem circuit_fits {vs ni no : Nat} {es : List AigEvent} (hb : AigBody vs ni no [] es) {outs : List (BDD m)}
    (h : ∀ (j : Nat) (f : BDD m), outs[j]? = some f → ∀ x σ, AigValues es x σ → f.eval x = σ (aigOutput j es)) :
    Fits ni outs := by
  intro f hf
  obtain ⟨j, hj⟩ := List.mem_iff_getElem?.mp hf
  refine fits_of_eval fun x y hxy => ?_
  obtain ⟨σ, h1, -⟩ := C67_values vs ni no es hb x
  rw [h j f hj x σ h1, h j f hj y σ (aigValues_agree hb hxy h1)]

/-! ## The values of empty buckets -/

def EmptyZero (k : Nat) (bs : List (Bucket m)) : Prop :=
  ∀ b ∈ bs, b.isEmpty = true → b.metricValues = List.replicate k 0

theorem EmptyZero.update {k : Nat} {grid newIdx : List Nat} {modified : List (BDD m)} {nodes : Nat} {vals : List ℚ}
    {opnum n i : Nat} {s s' : SearchState m} (h : updateLoop grid newIdx modified nodes vals opnum n i s = .ok s')
    (hz : EmptyZero k s.buckets) : EmptyZero k s'.buckets := by
  induction n generalizing i s with
  | zero => unfold updateLoop at h; cases h; exact hz
  | succ n ih =>
    unfold updateLoop at h
    obtain ⟨b, hb, h⟩ := bind_ok h
    split at h
    · exact ih h hz
    · obtain ⟨index, hi, h⟩ := bind_ok h
      split at h
      · exact ih h hz
      · refine ih h ?_
        intro c hc he
        rcases List.mem_or_eq_of_mem_set hc with hc | rfl
        · exact hz c hc he
        · cases he

theorem EmptyZero.step {k : Nat} {f : List (BDD m)} {ms : List (MetricDim m)} {populate : Bool} {current : Nat}
    {bf : List (BDD m)} {op : OpFun m} {opnum : Nat} {s s' : SearchState m}
    (h : opStep f ms populate current bf op opnum s = .ok s') (hz : EmptyZero k s.buckets) :
    EmptyZero k s'.buckets := by
  unfold opStep at h
  obtain ⟨flag, -, h⟩ := bind_ok h
  split at h
  · obtain ⟨modified, -, h⟩ := bind_ok h
    obtain ⟨cur, -, h⟩ := bind_ok h
    split at h
    · cases h
      split <;> exact hz
    · obtain ⟨r, -, h⟩ := bind_ok h
      cases r with
      | notBetter => cases h; exact hz
      | exceeded => cases h; exact hz
      | better idx vals =>
        obtain ⟨start, -, h⟩ := bind_ok h
        exact EmptyZero.update h hz
  · cases h; exact hz

theorem EmptyZero.ops {k : Nat} {f : List (BDD m)} {ms : List (MetricDim m)} {populate : Bool} {current : Nat}
    {bf : List (BDD m)} {ops : List (OpFun m)} {opnum : Nat} {s s' : SearchState m}
    (h : opLoop f ms populate current bf ops opnum s = .ok s') (hz : EmptyZero k s.buckets) :
    EmptyZero k s'.buckets := by
  induction ops generalizing opnum s with
  | nil => cases h; exact hz
  | cons op ops ih =>
    unfold opLoop at h
    obtain ⟨s1, h1, h⟩ := bind_ok h
    exact ih h (EmptyZero.step h1 hz)

theorem EmptyZero.search {k : Nat} {f : List (BDD m)} {ms : List (MetricDim m)} {ops : List (OpFun m)}
    {populate : Bool} {fuel : Nat} {bs r : List (Bucket m)} {test : List (List Nat)}
    (h : searchLoop f ms ops populate fuel bs test = .ok r) (hz : EmptyZero k bs) : EmptyZero k r := by
  induction fuel generalizing bs test with
  | zero =>
    cases test with
    | nil => cases h; exact hz
    | cons w ws => cases h
  | succ fuel ih =>
    cases test with
    | nil => cases h; exact hz
    | cons w ws =>
      unfold searchLoop at h
      obtain ⟨current, -, h⟩ := bind_ok h
      obtain ⟨b, -, h⟩ := bind_ok h
      obtain ⟨s, h1, h⟩ := bind_ok h
      obtain ⟨bs', h2, h⟩ := bind_ok h
      refine ih h ?_
      intro c hc he
      obtain ⟨c0, hc0, hs⟩ := forall₂_mem (R := fun a b => SameBut b a)
        (List.forall₂_iff_get.mpr ⟨(replaceLoop_same h2).length_eq.symm, fun i h1 h2' =>
          (List.forall₂_iff_get.mp (replaceLoop_same h2)).2 i h2' h1⟩) hc
      rw [hs.2.2.1]
      exact EmptyZero.ops h1 hz c0 hc0 (hs.2.2.2 ▸ he)

theorem empty_zero {fuel : Nat} {f : List (BDD m)} {ms : List (MetricDim m)} {ops : List (OpFun m)} {populate : Bool}
    {r : List (Bucket m)} (h : bucketGreedyMinimize fuel f ms ops populate = .ok r) : EmptyZero ms.length r := by
  unfold bucketGreedyMinimize at h
  split at h
  · cases h
  · obtain ⟨first, -, h⟩ := bind_ok h
    refine EmptyZero.search h ?_
    intro b hb _
    rw [List.eq_of_mem_replicate hb]

end Verif

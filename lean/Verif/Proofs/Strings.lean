import Verif.Model.Strings
import Verif.Proofs.Bucket

/-!
# Lemmas about the string arrays handed to CUDD
-/

namespace Verif

variable {m : Mgr}

/-- The part of a string that a C string shows. -/
def shown (s : List Char) : List Char := s.takeWhile (fun c => c ≠ '\x00')

/-- The buffer after the copy. -/
def cbuf (s : List Char) : List (Option Char) :=
  (shown s ++ List.replicate (s.length + 1 - (shown s).length) '\x00').map some

/-- The blocks `vec_to_arr` adds to a heap with `b` blocks. -/
def arrHeap (b : Nat) (vec : List (List Char)) : Heap :=
  some (.ptrs ((List.range vec.length).map (fun k => some (b + 1 + k)))) :: vec.map (fun s => some (.chars (cbuf s)))

theorem shown_length_le (s : List Char) : (shown s).length ≤ s.length := by
  unfold shown
  exact (List.takeWhile_sublist _).length_le

theorem ne_nul_of_mem_shown {s : List Char} {c : Char} (h : c ∈ shown s) : c ≠ '\x00' := by
  induction s with
  | nil => simp [shown] at h
  | cons d s ih =>
    by_cases hd : d = '\x00'
    · simp [shown, hd] at h
    · rw [shown, List.takeWhile_cons_of_pos (by simpa using hd), List.mem_cons] at h
      rcases h with rfl | h
      · exact hd
      · exact ih h

theorem shown_spec (s : List Char) : shown s = s ∨ ∃ r, s = shown s ++ '\x00' :: r := by
  induction s with
  | nil => exact .inl rfl
  | cons d s ih =>
    by_cases hd : d = '\x00'
    · exact .inr ⟨s, by simp [shown, hd]⟩
    · have e : shown (d :: s) = d :: shown s := by
        rw [shown, List.takeWhile_cons_of_pos (by simpa using hd)]
        rfl
      rcases ih with ih | ⟨r, ih⟩
      · exact .inl (by rw [e, ih])
      · refine .inr ⟨r, ?_⟩
        rw [e, List.cons_append, ← ih]

theorem strncpyChars_eq (s : List Char) : strncpyChars (s.length + 1) (s ++ ['\x00']) =
    .ok (shown s ++ List.replicate (s.length + 1 - (shown s).length) '\x00') := by
  induction s with
  | nil => rfl
  | cons c cs ih =>
    rw [List.length_cons, List.cons_append, strncpyChars]
    by_cases hc : c = '\x00'
    · simp [hc, shown]
    · rw [if_neg hc, ih]
      simp [shown, hc, bind, Except.bind]

theorem block_append_cons (h : Heap) (b : Block) (t : Heap) : Heap.block (h ++ some b :: t) h.length = .ok b := by
  simp [Heap.block]

theorem vecToArrLoop_eq (ss : List (List Char)) (h don : Heap) (pre : List (Option Nat)) :
    vecToArrLoop h.length ss pre.length (h ++ some (.ptrs (pre ++ List.replicate ss.length none)) :: don) =
      .ok (h ++ some (.ptrs (pre ++ (List.range ss.length).map (fun k => some (h.length + 1 + don.length + k)))) ::
        (don ++ ss.map (fun s => some (.chars (cbuf s))))) := by
  induction ss generalizing don pre with
  | nil => simp [vecToArrLoop]
  | cons s ss ih =>
    rw [vecToArrLoop]
    simp only [Heap.alloc]
    rw [Heap.setPtr, List.append_assoc, List.cons_append, block_append_cons]
    simp only [bind, Except.bind]
    rw [vset, if_pos (by simp)]
    simp only []
    rw [Heap.strncpy, strncpyChars_eq]
    simp only [bind, Except.bind]
    have e1 : (h ++ some (Block.ptrs (pre ++ List.replicate (s :: ss).length none)) ::
        (don ++ [some (Block.chars (List.replicate (s.length + 1) none))])).set h.length
        (some (Block.ptrs ((pre ++ List.replicate (s :: ss).length none).set pre.length
          (some (h ++ some (Block.ptrs (pre ++ List.replicate (s :: ss).length none)) :: don).length)))) =
        (h ++ some (Block.ptrs ((pre ++ [some (h.length + 1 + don.length)]) ++ List.replicate ss.length none)) ::
          don) ++ [some (Block.chars (List.replicate (s.length + 1) none))] := by
      rw [List.set_append_right _ _ (le_refl _), Nat.sub_self, List.set_cons_zero,
        List.set_append_right _ _ (le_refl _), Nat.sub_self, List.length_cons, List.replicate_succ,
        List.set_cons_zero]
      simp
      omega
    rw [e1]
    have e2 : (h ++ some (Block.ptrs (pre ++ List.replicate (s :: ss).length none)) :: don).length =
        (h ++ some (Block.ptrs ((pre ++ [some (h.length + 1 + don.length)]) ++ List.replicate ss.length none)) ::
          don).length := by simp
    rw [e2, block_append_cons]
    simp only [List.length_replicate, lt_irrefl, if_false]
    rw [List.set_append_right _ _ (le_refl _), Nat.sub_self, List.set_cons_zero]
    have e3 : pre.length + 1 = (pre ++ [some (h.length + 1 + don.length)]).length := by simp
    rw [e3, List.append_assoc, List.cons_append, ih]
    apply congrArg Except.ok
    simp only [List.length_append, List.length_cons, List.length_nil, List.range_succ_eq_map, List.map_cons,
      List.map_map, List.append_assoc, List.cons_append, List.nil_append, cbuf, List.drop_replicate, Nat.sub_self,
      List.replicate_zero, List.append_nil]
    congr 6
    apply List.map_congr_left
    intro k _
    simp only [Function.comp]
    congr 1
    omega

theorem vecToArr_eq (vec : List (List Char)) (h : Heap) :
    vecToArr vec h = .ok (h.length, h ++ arrHeap h.length vec) := by
  have := vecToArrLoop_eq vec h [] []
  simp only [List.nil_append, List.length_nil, Nat.add_zero] at this
  simp only [vecToArr, Heap.alloc, bind, Except.bind]
  rw [this]
  rfl

/-- The array of pointers to the `n` blocks behind it. -/
def ptrArr (b n : Nat) : Option Block := some (.ptrs ((List.range n).map (fun k => some (b + 1 + k))))

theorem getPtr_eq (h B : Heap) (n i : Nat) : Heap.getPtr (h ++ ptrArr h.length n :: B) (some h.length) i =
    if i < n then .ok (h.length + 1 + i) else .error .ub := by
  rw [Heap.getPtr, ptrArr, block_append_cons]
  simp only [bind, Except.bind]
  by_cases hi : i < n
  · rw [vget_eq _ i none (by simpa using hi), if_pos hi]
    simp [hi]
  · rw [vget_error _ _ (by simpa using hi), if_neg hi]

theorem delArrLoop_eq (h t : Heap) (n k i : Nat) (B : Heap) (hB : ∀ b ∈ B, b.isSome = true)
    (hn : i + B.length = n) (hk : k ≤ B.length) :
    delArrLoop (some h.length) k i (h ++ ptrArr h.length n :: (List.replicate i none ++ B ++ t)) =
      .ok (h ++ ptrArr h.length n :: (List.replicate (i + k) none ++ B.drop k ++ t)) := by
  induction k generalizing i B with
  | zero => simp [delArrLoop]
  | succ k ih =>
    cases B with
    | nil => simp at hk
    | cons b B =>
      rw [List.length_cons] at hn hk
      obtain ⟨b', rfl⟩ := Option.isSome_iff_exists.mp (hB _ List.mem_cons_self)
      rw [delArrLoop, getPtr_eq, if_pos (by omega)]
      simp only [bind, Except.bind]
      have e : h ++ ptrArr h.length n :: (List.replicate i none ++ some b' :: B ++ t) =
          (h ++ ptrArr h.length n :: List.replicate i none) ++ some b' :: (B ++ t) := by simp
      have el : h.length + 1 + i = (h ++ ptrArr h.length n :: List.replicate i none).length := by
        simp
        omega
      rw [Heap.free, e, el, block_append_cons]
      simp only [bind, Except.bind]
      rw [List.set_append_right _ _ (le_refl _), Nat.sub_self, List.set_cons_zero]
      have := ih (i + 1) B (fun b hb => hB b (List.mem_cons_of_mem _ hb)) (by omega) (by omega)
      rw [List.drop_succ_cons, show i + (k + 1) = i + 1 + k by omega, ← this]
      congr 1
      rw [List.replicate_succ']
      simp

theorem delArrLoop_add (arr : Option Nat) (a b i : Nat) (h : Heap) :
    delArrLoop arr (a + b) i h = (do let h ← delArrLoop arr a i h; delArrLoop arr b (i + a) h) := by
  induction a generalizing i h with
  | zero => simp [delArrLoop, bind, Except.bind]
  | succ a ih =>
    rw [show a + 1 + b = (a + b) + 1 by omega, delArrLoop, delArrLoop]
    simp only [bind, Except.bind]
    cases Heap.getPtr h arr i with
    | error e => rfl
    | ok p =>
      simp only []
      cases Heap.free h (some p) with
      | error e => rfl
      | ok h' =>
        simp only []
        rw [ih, show i + 1 + a = i + (a + 1) by omega]
        rfl

/-- Deleting with the right or too small a count. -/
theorem delArr_le (h t : Heap) (k : Nat) (B : Heap) (hB : ∀ b ∈ B, b.isSome = true) (hk : k ≤ B.length) :
    delArr (some h.length) k (h ++ ptrArr h.length B.length :: (B ++ t)) =
      .ok (h ++ none :: (List.replicate k none ++ B.drop k ++ t)) := by
  have := delArrLoop_eq h t B.length k 0 B hB (by omega) hk
  simp only [List.replicate_zero, List.nil_append, Nat.zero_add] at this
  rw [delArr, this]
  simp only [bind, Except.bind, Heap.free]
  rw [ptrArr, block_append_cons]
  simp only []
  rw [List.set_append_right _ _ (le_refl _), Nat.sub_self, List.set_cons_zero]

/-- Deleting with too large a count. -/
theorem delArr_gt (h t : Heap) (k : Nat) (B : Heap) (hB : ∀ b ∈ B, b.isSome = true) (hk : B.length < k) :
    delArr (some h.length) k (h ++ ptrArr h.length B.length :: (B ++ t)) = .error .ub := by
  have := delArrLoop_eq h t B.length B.length 0 B hB (by omega) le_rfl
  simp only [List.replicate_zero, List.nil_append, Nat.zero_add] at this
  obtain ⟨d, rfl⟩ : ∃ d, k = B.length + (d + 1) := ⟨k - B.length - 1, by omega⟩
  rw [delArr, delArrLoop_add, this]
  simp only [bind, Except.bind, delArrLoop, Nat.zero_add]
  rw [getPtr_eq, if_neg (lt_irrefl _)]

theorem arrHeap_eq (b : Nat) (vec : List (List Char)) :
    arrHeap b vec = ptrArr b vec.length :: vec.map (fun s => some (.chars (cbuf s))) := rfl

theorem cstrChars_cbuf_aux (l : List Char) (k : Nat) (h : ∀ c ∈ l, c ≠ '\x00') :
    cstrChars ((l ++ List.replicate (k + 1) '\x00').map some) = .ok l := by
  induction l with
  | nil => simp [cstrChars, List.replicate_succ]
  | cons c l ih =>
    rw [List.cons_append, List.map_cons, cstrChars, if_neg (h c List.mem_cons_self),
      ih (fun c hc => h c (List.mem_cons_of_mem _ hc))]
    rfl

theorem cstrChars_cbuf (s : List Char) : cstrChars (cbuf s) = .ok (shown s) := by
  have := shown_length_le s
  obtain ⟨k, hk⟩ : ∃ k, s.length + 1 - (shown s).length = k + 1 := ⟨s.length - (shown s).length, by omega⟩
  rw [cbuf, hk]
  apply cstrChars_cbuf_aux
  intro c hc
  exact ne_nul_of_mem_shown hc

theorem readName_eq (h t : Heap) (vec : List (List Char)) (i : Nat) :
    Heap.readName (h ++ arrHeap h.length vec ++ t) (some h.length) i =
      (do let s ← vget vec i; .ok (shown s)) := by
  rw [Heap.readName, arrHeap_eq, List.append_assoc, List.cons_append, getPtr_eq]
  by_cases hi : i < vec.length
  · rw [if_pos hi, vget_eq _ i [] hi]
    simp only [bind, Except.bind]
    have e : Heap.block (h ++ ptrArr h.length vec.length ::
        (vec.map (fun s => some (.chars (cbuf s))) ++ t)) (h.length + 1 + i) = .ok (.chars (cbuf (vec.getD i []))) := by
      rw [Heap.block, List.getElem?_append_right (by omega), show h.length + 1 + i - h.length = i + 1 by omega,
        List.getElem?_cons_succ, List.getElem?_append_left (by simpa using hi)]
      simp [hi]
    rw [e]
    exact cstrChars_cbuf _
  · rw [if_neg hi, vget_error _ _ (by omega)]
    rfl

end Verif

import Verif.Proofs.PrintTable
import Verif.Props.FloatExperiments
import Verif.Props.FloatNsga
import Verif.Props.FloatBenchmark
import Verif.Props.AdderTables

/-! # C122 Tables printed by the experiments -/

namespace Verif

variable {m : Mgr} {rnd dec cv fl lg : ℚ → ℚ}

/-! ## Buckets for adders -/

/-- The fields of line `i` of the table of buckets: its place, and either nothing or the size and the errors of a
function `g` that is smaller than `f`, at least as large as the smallest one found and within the limits of the place. -/
def BucketFields (f : List (BDD m)) (least i : Nat) (row : List (List Char)) : Prop :=
  ∃ a b c d e, row = [a, b, c, d, e] ∧ readNat a = some (i / 20) ∧ readNat b = some (i % 20) ∧
    ((c = "NaN".toList ∧ d = "NaN".toList ∧ e = "NaN".toList) ∨
      ∃ g : List (BDD m), g.length = f.length ∧ Fits 16 g ∧ readNat c = some (nodeCount g) ∧ nodeCount g < nodeCount f ∧
        least ≤ nodeCount g ∧ Shows d (mean 16 (fun x => if bitsAt f x = bitsAt g x then 0 else 1)) ∧
        Shows e (mean 16 (absErrAt f g)) ∧ ShowsAtMost d ((((i / 20 : Nat) : ℚ) + 1) / 400) ∧
        ShowsAtMost e (7 * (((i % 20 : Nat) : ℚ) + 1) / 20))

theorem shows_005 {q : ℚ} {k : Nat} (hk : k < 20) (h : q ≤ double005 * ((k : ℚ) + 1) / 20) :
    ShowsAtMost (formatG q) (((k : ℚ) + 1) / 400) := by
  have h0 : (0 : ℚ) < (k : ℚ) + 1 := by positivity
  refine shows_le_near (q' := double005 * ((k : ℚ) + 1) / 20) ⟨25 * (k + 1), -4, ?_, ?_⟩ (by positivity) ?_ h
  · rw [abs_of_nonneg (by omega)]; omega
  · push_cast; norm_num; ring
  · have e : double005 * ((k : ℚ) + 1) / 20 - ((k : ℚ) + 1) / 400 = (double005 - 1 / 20) * (((k : ℚ) + 1) / 20) := by ring
    rw [e, abs_mul, abs_of_pos (by positivity : (0 : ℚ) < ((k : ℚ) + 1) / 20)]
    have : |double005 - 1 / 20| ≤ 1 / 10 ^ 10 := by norm_num [double005]
    have := mul_le_mul_of_nonneg_right this (by positivity : (0 : ℚ) ≤ ((k : ℚ) + 1) / 20)
    linarith

theorem shows_7 {q : ℚ} {k : Nat} (hk : k < 20) (h : q ≤ 7 * ((k : ℚ) + 1) / 20) :
    ShowsAtMost (formatG q) (7 * ((k : ℚ) + 1) / 20) := by
  refine shows_le ⟨35 * (k + 1), -2, ?_, ?_⟩ h
  · rw [abs_of_nonneg (by omega)]; omega
  · push_cast; norm_num; ring

theorem bucketLine_fields {f : List (BDD m)} {least i : Nat} (hi : i < 400) {row : List Nat × Option (Nat × ℚ × ℚ)}
    (h : IsBucketRow f i row) (hl : ∀ p, row.2 = some p → least ≤ p.1) :
    ∃ fs, fs ≠ [] ∧ (∀ x ∈ fs, Plain x) ∧ bucketLine row.1 row.2 = joined [';'] fs ++ ['\n'] ∧
      BucketFields f least i fs := by
  obtain ⟨h1, h2⟩ := h
  rw [h1]
  cases hr : row.2 with
  | none =>
    refine ⟨[natText (i / 20), natText (i % 20), "NaN".toList, "NaN".toList, "NaN".toList], by simp, ?_, ?_, _, _, _, _, _,
      rfl, readNat_natText _, readNat_natText _, .inl ⟨rfl, rfl, rfl⟩⟩
    · intro x hx
      simp only [List.mem_cons, List.not_mem_nil, or_false] at hx
      rcases hx with rfl | rfl | rfl | rfl | rfl
      · exact plain_nat _
      · exact plain_nat _
      all_goals decide
    · simp [bucketLine, joined]
  | some p =>
    obtain ⟨sz, er, ace⟩ := p
    obtain ⟨b1, b2, b3, g, g1, g2, g3, g4, g5⟩ := h2 sz er ace hr
    refine ⟨[natText (i / 20), natText (i % 20), natText sz, formatG er, formatG ace], by simp, ?_, ?_, _, _, _, _, _,
      rfl, readNat_natText _, readNat_natText _, .inr ⟨g, g1, g2, ?_, g3 ▸ b3, g3 ▸ hl _ hr, ?_, ?_, ?_, ?_⟩⟩
    · intro x hx
      simp only [List.mem_cons, List.not_mem_nil, or_false] at hx
      rcases hx with rfl | rfl | rfl | rfl | rfl
      · exact plain_nat _
      · exact plain_nat _
      · exact plain_nat _
      · exact plain_number _
      · exact plain_number _
    · simp [bucketLine, joined]
    · rw [readNat_natText, g3]
    · rw [← g4]; exact shows_number _
    · rw [← g5]; exact shows_number _
    · exact shows_005 (by omega) b1.le
    · exact shows_7 (by omega) b2.le

/-- What `minimize_adders` prints is a table: the column names, the sizes, the errors as they are up to six digits and
within the limits, and the time, then 400 lines for the buckets. -/
theorem C122_minimize_adders (hr : Nearest rnd) (hd : Dec100 dec) (hc : DecToDouble rnd cv) (asserts : Bool)
    (files : String → List AigEvent × Bool) (rs : Nat → Nat) (n : Nat) (hn : n ≤ 2 ^ 50) :
    ∃ f : List (BDD m), ∃ bound, (∀ x, uAt f x = opA 8 x + opB 8 x) ∧ f.length = 9 ∧ ∀ fuel, bound ≤ fuel →
      ∃ g : List (BDD m), ∃ text a b c d buckets, minimizeAddersText rnd dec cv asserts fuel files rs n m = (text, none) ∧
        readTable ';' text = some ([["size f".toList, "size fhat".toList, "error rate".toList,
            "average case error".toList, "runtime".toList], [a, b, c, d, durationText n], [[]], ["Buckets:".toList]] ++
          (buckets ++ [[[]]])) ∧
        g.length = 9 ∧ Fits 16 g ∧ nodeCount g ≤ nodeCount f ∧
        readNat a = some (nodeCount f) ∧ readNat b = some (nodeCount g) ∧
        Shows c (mean 16 (fun x => if bitsAt f x = bitsAt g x then 0 else 1)) ∧ Shows d (mean 16 (absErrAt f g)) ∧
        ShowsAtMost c (1 / 20) ∧ ShowsAtMost d 7 ∧
        buckets.length = 400 ∧ ∀ (i : Nat) (row : List (List Char)), buckets[i]? = some row →
          BucketFields f (nodeCount g) i row := by
  obtain ⟨f, bound, h1, h2, h3⟩ := C110_minimize_adders (m := m) hr hd hc asserts files rs
  refine ⟨f, bound, h1, h2, fun fuel hfuel => ?_⟩
  obtain ⟨g, er, ace, rows, r1, r2, r3, r4, r5, r6, r7, r8, r9, r10⟩ := h3 fuel hfuel
  have htail : readTable ';' ['\n'] = some [[[]]] := by decide
  have hidx : ∀ p ∈ rows.zipIdx, p.2 < 400 ∧ rows[p.2]? = some p.1 := fun p hp => by
    have := List.mem_zipIdx_iff_getElem?.mp hp
    refine ⟨?_, this⟩
    rw [← r9]
    exact (List.getElem?_eq_some_iff.mp this).1
  obtain ⟨buckets, b1, b2⟩ := semi_rows (fun p : (List Nat × Option (Nat × ℚ × ℚ)) × Nat => bucketLine p.1.1 p.1.2)
    (fun p fs => BucketFields f (nodeCount g) p.2 fs) htail rows.zipIdx fun p hp => by
      obtain ⟨q1, q2⟩ := r10 p.2 p.1 (hidx p hp).2
      exact bucketLine_fields (hidx p hp).1 q1 q2
  have hflat : rows.zipIdx.flatMap (fun p => bucketLine p.1.1 p.1.2) = rows.flatMap fun r => bucketLine r.1 r.2 := by
    conv_rhs => rw [← List.zipIdx_map_fst 0 rows]
    rw [List.flatMap_map]
  rw [hflat] at b1
  have hlen : buckets.length = 400 := by rw [← b2.length_eq, List.length_zipIdx, r9]
  obtain ⟨t1, -⟩ := C121_time hr n hn
  have hhead := readTable_semi (fs := ["size f".toList, "size fhat".toList, "error rate".toList,
    "average case error".toList, "runtime".toList]) (by simp) (by decide) (readTable_semi
      (fs := [natText (nodeCount f), natText (nodeCount g), formatG er, formatG ace, durationText n]) (by simp) (by
        intro x hx
        simp only [List.mem_cons, List.not_mem_nil, or_false] at hx
        rcases hx with rfl | rfl | rfl | rfl | rfl
        · exact plain_nat _
        · exact plain_nat _
        · exact plain_number _
        · exact plain_number _
        · exact plain_duration _)
      (readTable_cons (l := []) (by simp) (readTable_cons (l := "Buckets:".toList) (by decide) b1)))
  refine ⟨g, _, natText (nodeCount f), natText (nodeCount g), formatG er, formatG ace, buckets, ?_, hhead, r2, r3, r4,
    readNat_natText _, readNat_natText _, by rw [← r5]; exact shows_number _, by rw [← r6]; exact shows_number _, ?_, ?_,
    hlen, ?_⟩
  · unfold minimizeAddersText
    simp only [r1, adderLine, t1, bind, Except.bind, printRows]
    simp [joined]
  · have := shows_005 (q := er) (k := 19) (by norm_num) (by push_cast; linarith)
    norm_num at this ⊢
    exact this
  · have := shows_7 (q := ace) (k := 19) (by norm_num) (by push_cast; linarith)
    norm_num at this ⊢
    exact this
  · intro i row hrow
    have hi : i < rows.zipIdx.length := by
      rw [List.length_zipIdx, r9, ← hlen]
      exact (List.getElem?_eq_some_iff.mp hrow).1
    obtain ⟨row', e1, e2⟩ := forall₂_getElem? b2 i _ (List.getElem?_eq_getElem hi)
    rw [hrow] at e1
    cases e1
    simpa using e2

/-! ## Circuits -/

/-- The fields of a line about a circuit. -/
def CircuitFields (name : String) (size found : Nat) (er : ℚ) (n : Nat) (row : List (List Char)) : Prop :=
  ∃ a b c, row = [name.toList, a, b, c, durationText n] ∧ readNat a = some size ∧ readNat b = some found ∧ Shows c er ∧
    ShowsAtMost c (1 / 20)

theorem circuitLine_fields {time : Except Fault (List Char)} {n : Nat} (ht : time = .ok (durationText n)) {name : String}
    (hname : Plain name.toList) (size found : Nat) {er : ℚ} (her : ShowsAtMost (formatG er) (1 / 20)) :
    ∃ fs, fs ≠ [] ∧ (∀ x ∈ fs, Plain x) ∧
      circuitLine time name.toList size found er = .ok (joined [',', ' '] fs ++ ['\n']) ∧
      CircuitFields name size found er n fs := by
  refine ⟨[name.toList, natText size, natText found, formatG er, durationText n], by simp, ?_, ?_, _, _, _, rfl,
    readNat_natText _, readNat_natText _, shows_number _, her⟩
  · intro x hx
    simp only [List.mem_cons, List.not_mem_nil, or_false] at hx
    rcases hx with rfl | rfl | rfl | rfl | rfl
    · exact hname
    · exact plain_nat _
    · exact plain_nat _
    · exact plain_number _
    · exact plain_duration _
  · simp [circuitLine, ht, joined, bind, Except.bind]

theorem filename_plain {filepath filename : Nat → Except Fault String}
    (hp : (filepath, filename) = (iscasFilepath, iscasFilename) ∨ (filepath, filename) = (epflFilepath, epflFilename))
    {file : Nat} {path : String} (h : filepath file = .ok path) :
    ∃ name, filename file = .ok name ∧ Plain name.toList := by
  have iscas : ∀ i < 11, ((iscasFilename i).toOption.map fun s => decide (Plain s.toList)) = some true := by decide +kernel
  have epfl : ∀ i < 10, ((epflFilename i).toOption.map fun s => decide (Plain s.toList)) = some true := by decide +kernel
  have use : ∀ {r : Except Fault String}, (r.toOption.map fun s => decide (Plain s.toList)) = some true →
      ∃ name, r = .ok name ∧ Plain name.toList := fun {r} h => by
    cases r with
    | error e => simp [Except.toOption] at h
    | ok s => exact ⟨s, rfl, by simpa [Except.toOption] using h⟩
  have big : ∀ {files : List String} {file : Nat}, files.length ≤ file → fileById files file = .error .logicError :=
    fun {files file} h => if_pos h
  rcases hp with hp | hp <;> obtain ⟨rfl, rfl⟩ := Prod.mk.inj hp
  · refine use (iscas file (not_le.mp fun hf => ?_))
    unfold iscasFilepath iscasFilename at h
    rw [big hf] at h
    cases h
  · refine use (epfl file (not_le.mp fun hf => ?_))
    unfold epflFilepath epflFilename at h
    rw [big hf] at h
    cases h

/-- What `minimize_iscas` and `minimize_epfl` print is a table: the column names, then a line for each file with its name,
the size, the size found, the error rate up to six digits, at most 0.05, and the time. -/
theorem minimizeCircuitsText_table (hr : Nearest rnd) (asserts : Bool) (files : String → List AigEvent × Bool)
    (rs : Nat → Nat) (filepath filename : Nat → Except Fault String)
    (hp : (filepath, filename) = (iscasFilepath, iscasFilename) ∨ (filepath, filename) = (epflFilepath, epflFilename))
    (list : List Nat) (ni no : Nat → Nat) (es : Nat → List AigEvent)
    (hfiles : ∀ file ∈ list, ∃ path, filepath file = .ok path ∧ CircuitFile files path (ni file) (no file) (es file) ∧
      1 ≤ no file ∧ ni file ≤ 1000) (n : Nat → Nat) (hn : ∀ file, n file ≤ 2 ^ 50) (mgr : Nat → Mgr) :
    ∃ bound, ∀ fuel, bound ≤ fuel → ∃ text rows,
      minimizeCircuitsText rnd dec cv asserts fuel files rs filepath filename (fun file => n file) mgr list = (text, none) ∧
      readTable ',' text = some (["Function name".toList, "original size".toList, "smallest size found".toList,
        "corresponding error rate".toList, "runtime".toList] :: rows) ∧
      List.Forall₂ (fun file row => ∃ name, filename file = .ok name ∧ ∃ f g : List (BDD (mgr file)), ∃ er,
        IsCircuit (es file) (no file) f ∧ g.length = no file ∧ Fits (ni file) g ∧ nodeCount g ≤ nodeCount f ∧
        |er - mean (ni file) (fun x => if bitsAt f x = bitsAt g x then 0 else 1)| ≤
          ni file / 2 ^ 52 * mean (ni file) (fun x => if bitsAt f x = bitsAt g x then 0 else 1) ∧
        CircuitFields name (nodeCount f) (nodeCount g) er (n file) row) list rows := by
  obtain ⟨bound, hb⟩ := common_bound (Q := fun file fuel => ∃ fs, fs ≠ [] ∧ (∀ x ∈ fs, Plain x) ∧
    (do
      let r ← minimizeCircuitRowF rnd dec cv asserts fuel files rs filepath filename file (mgr file)
      circuitLine (timeText rnd (n file : Int)) r.1.toList r.2.1 r.2.2.1 r.2.2.2) =
        .ok (joined [',', ' '] fs ++ ['\n']) ∧
      ∃ name, filename file = .ok name ∧ ∃ f g : List (BDD (mgr file)), ∃ er,
        IsCircuit (es file) (no file) f ∧ g.length = no file ∧ Fits (ni file) g ∧ nodeCount g ≤ nodeCount f ∧
        |er - mean (ni file) (fun x => if bitsAt f x = bitsAt g x then 0 else 1)| ≤
          ni file / 2 ^ 52 * mean (ni file) (fun x => if bitsAt f x = bitsAt g x then 0 else 1) ∧
        CircuitFields name (nodeCount f) (nodeCount g) er (n file) fs) list fun file hfile => by
    obtain ⟨path, p1, p2, p3, p4⟩ := hfiles file hfile
    obtain ⟨name, n1, n2⟩ := filename_plain hp p1
    obtain ⟨f, bound, f1, f2⟩ := C110_minimize_circuit (m := mgr file) (dec := dec) (cv := cv) hr asserts files rs
      filepath filename hp file path name p1 n1 (ni file) (no file) (es file) p2 p3 p4
    refine ⟨bound, fun fuel hfuel => ?_⟩
    obtain ⟨g, er, e, g1, g2, g3, g4, rfl, g6, g7, g8, -⟩ := f2 fuel hfuel
    have her : ShowsAtMost (formatG er) (1 / 20) := by
      refine shows_le_near (q' := double005 * (1 + 1 / 2 ^ 51)) ⟨5, -2, by norm_num, by norm_num⟩ (by norm_num) ?_ g8.le
      norm_num [double005]
    obtain ⟨fs, k1, k2, k3, k4⟩ := circuitLine_fields (C121_time hr (n file) (hn file)).1 n2 (nodeCount f) (nodeCount g) her
    refine ⟨fs, k1, k2, ?_, name, n1, f, g, er, f1, g2, g3, g4, g7, k4⟩
    simp only [g1, bind, Except.bind]
    exact k3
  refine ⟨bound, fun fuel hfuel => ?_⟩
  obtain ⟨text, rows, t1, t2, t3⟩ := comma_rows _ _ list (hb fuel hfuel)
  have hhead := readTable_comma (fs := ["Function name".toList, "original size".toList, "smallest size found".toList,
        "corresponding error rate".toList, "runtime".toList]) (by simp) (by decide) t2
  refine ⟨_, rows, ?_, hhead, t3⟩
  unfold minimizeCircuitsText
  rw [t1]
  simp [joined]

theorem C122_minimize_iscas (hr : Nearest rnd) (asserts : Bool) (files : String → List AigEvent × Bool)
    (rs : Nat → Nat) (ni no : Nat → Nat) (es : Nat → List AigEvent)
    (hfiles : ∀ file ∈ minimizeIscasFiles, ∃ path, iscasFilepath file = .ok path ∧
      CircuitFile files path (ni file) (no file) (es file) ∧ 1 ≤ no file ∧ ni file ≤ 1000)
    (n : Nat → Nat) (hn : ∀ file, n file ≤ 2 ^ 50) (mgr : Nat → Mgr) :
    ∃ bound, ∀ fuel, bound ≤ fuel → ∃ text rows,
      minimizeIscasText rnd dec cv asserts fuel files rs (fun file => n file) mgr = (text, none) ∧
      readTable ',' text = some (["Function name".toList, "original size".toList, "smallest size found".toList,
        "corresponding error rate".toList, "runtime".toList] :: rows) ∧
      List.Forall₂ (fun file row => ∃ name, iscasFilename file = .ok name ∧ ∃ f g : List (BDD (mgr file)), ∃ er,
        IsCircuit (es file) (no file) f ∧ g.length = no file ∧ Fits (ni file) g ∧ nodeCount g ≤ nodeCount f ∧
        |er - mean (ni file) (fun x => if bitsAt f x = bitsAt g x then 0 else 1)| ≤
          ni file / 2 ^ 52 * mean (ni file) (fun x => if bitsAt f x = bitsAt g x then 0 else 1) ∧
        CircuitFields name (nodeCount f) (nodeCount g) er (n file) row) [1, 2, 3, 4, 5, 6, 7] rows :=
  minimizeCircuitsText_table hr asserts files rs iscasFilepath iscasFilename (.inl rfl) minimizeIscasFiles ni no es hfiles n
    hn mgr

theorem C122_minimize_epfl (hr : Nearest rnd) (asserts : Bool) (files : String → List AigEvent × Bool)
    (rs : Nat → Nat) (ni no : Nat → Nat) (es : Nat → List AigEvent)
    (hfiles : ∀ file ∈ minimizeEpflFiles, ∃ path, epflFilepath file = .ok path ∧
      CircuitFile files path (ni file) (no file) (es file) ∧ 1 ≤ no file ∧ ni file ≤ 1000)
    (n : Nat → Nat) (hn : ∀ file, n file ≤ 2 ^ 50) (mgr : Nat → Mgr) :
    ∃ bound, ∀ fuel, bound ≤ fuel → ∃ text rows,
      minimizeEpflText rnd dec cv asserts fuel files rs (fun file => n file) mgr = (text, none) ∧
      readTable ',' text = some (["Function name".toList, "original size".toList, "smallest size found".toList,
        "corresponding error rate".toList, "runtime".toList] :: rows) ∧
      List.Forall₂ (fun file row => ∃ name, epflFilename file = .ok name ∧ ∃ f g : List (BDD (mgr file)), ∃ er,
        IsCircuit (es file) (no file) f ∧ g.length = no file ∧ Fits (ni file) g ∧ nodeCount g ≤ nodeCount f ∧
        |er - mean (ni file) (fun x => if bitsAt f x = bitsAt g x then 0 else 1)| ≤
          ni file / 2 ^ 52 * mean (ni file) (fun x => if bitsAt f x = bitsAt g x then 0 else 1) ∧
        CircuitFields name (nodeCount f) (nodeCount g) er (n file) row) [4, 0, 1, 2, 3, 5, 6, 7, 8, 9] rows :=
  minimizeCircuitsText_table hr asserts files rs epflFilepath epflFilename (.inr rfl) minimizeEpflFiles ni no es hfiles n
    hn mgr

/-! ## Genetic minimisation -/

theorem shows_er {f : List (BDD m)} {N : Nat} {both : Bool} {maxAce flEr flAce : ℚ} {seen : List (BDD m) → Prop}
    {res : GeneticResult} (h : ReportsF f N both double005 maxAce flEr flAce seen res) :
    ShowsAtMost (formatG res.errorRate) (1 / 20) := by
  have h0 : res.errorRate ≤ double005 := by
    rcases h.figures with ⟨-, e, -⟩ | ⟨g, -, -, -, e, -⟩
    · rw [e]; norm_num [double005]
    · exact e.le
  have := shows_005 (q := res.errorRate) (k := 19) (by norm_num) (by push_cast; linarith)
  norm_num at this ⊢
  exact this

/-- What a circuit must be like for the genetic minimisation: its outputs are not all constant, it has fewer than `2 ^ 31`
nodes, the rounds suffice, and the individuals have one entry for each variable. -/
def GeneticOk {m : Mgr} (f : List (BDD m)) (pops : Nat → List (List ℚ)) (fuel : Nat) : Prop :=
  (∃ b ∈ f, ∃ x y, b.eval x ≠ b.eval y) ∧ nodeCount f < 2 ^ 31 ∧ nodeCount f < fuel ∧
    ∀ k, ∀ ind ∈ pops k, ind.length = (supportPositions f).length

/-- What `nsga2_minimize_iscas` prints. -/
theorem C122_nsga_iscas (hr : Nearest rnd) (hd : Dec100 dec) (hc : DecToDouble rnd cv) (hfl : FloatConversion fl)
    (asserts : Bool) (files : String → List AigEvent × Bool) (rs : Nat → Nat) (ni no : String → Nat)
    (es : String → List AigEvent) (pops : String → Nat → List (List ℚ)) (fuel : Nat) (mgr : String → Mgr)
    (hfiles : ∀ file ∈ nsgaIscasFiles, CircuitFile files ("./iscas85/" ++ file ++ ".aig") (ni file) (no file) (es file) ∧
      ni file ≤ 1000 ∧ ∀ f : List (BDD (mgr file)), IsCircuit (es file) (no file) f → GeneticOk f (pops file) fuel)
    (n : String → Nat) (hn : ∀ file, n file ≤ 2 ^ 50) :
    ∃ text rows, nsgaIscasText rnd dec cv fl asserts files rs pops fuel (fun file => n file) mgr = (text, none) ∧
      readTable ',' text = some (["File".toList, "Orig. Size".toList, "Approx. Size".toList, "ER".toList, "Time".toList] ::
        rows) ∧
      List.Forall₂ (fun file row => ∃ f : List (BDD (mgr file)), ∃ res K, IsCircuit (es file) (no file) f ∧ 1 ≤ K ∧
        K ≤ nodeCount f + 1 ∧
        ReportsF f (ni file) false double005 0 (13421773 / 2 ^ 28) 0 (SeenIn f (pops file) K) res ∧
        CircuitFields file (nodeCount f) res.nodeCount res.errorRate (n file) row)
        ["c432", "c499", "c880", "c1355", "c1908", "c2670", "c3540"] rows := by
  obtain ⟨text, rows, t1, t2, t3⟩ := comma_rows (fun file : String => do
    let r ← nsgaIscasRowF rnd dec cv fl asserts files rs file (pops file) fuel (mgr file)
    circuitLine (timeTextN rnd (n file : Int)) r.1.toList r.2.1 r.2.2.1 r.2.2.2)
    (fun file row => ∃ f : List (BDD (mgr file)), ∃ res K, IsCircuit (es file) (no file) f ∧ 1 ≤ K ∧
        K ≤ nodeCount f + 1 ∧
        ReportsF f (ni file) false double005 0 (13421773 / 2 ^ 28) 0 (SeenIn f (pops file) K) res ∧
        CircuitFields file (nodeCount f) res.nodeCount res.errorRate (n file) row) nsgaIscasFiles fun file hfile => by
      obtain ⟨c1, c2, c3⟩ := hfiles file hfile
      obtain ⟨f, f1, f2⟩ := (C111_circuits (m := mgr file) hr hd hc hfl asserts files rs (ni file) (no file) (es file) c2).1
        file c1
      obtain ⟨o1, o2, o3, o4⟩ := c3 f f1
      obtain ⟨res, K, r1, r2, r3, r4, -⟩ := f2 o1 o2 (pops file) o4 fuel o3
      have hplain : Plain file.toList := by
        have : ∀ file ∈ nsgaIscasFiles, Plain file.toList := by decide +kernel
        exact this file hfile
      obtain ⟨fs, k1, k2, k3, k4⟩ := circuitLine_fields (C121_time hr (n file) (hn file)).2 hplain (nodeCount f)
        res.nodeCount (shows_er r4)
      refine ⟨fs, k1, k2, ?_, f, res, K, f1, r2, r3, r4, k4⟩
      simp only [r1, bind, Except.bind]
      exact k3
  have hhead := readTable_comma (fs := ["File".toList, "Orig. Size".toList, "Approx. Size".toList, "ER".toList,
    "Time".toList]) (by simp) (by decide) t2
  refine ⟨_, rows, ?_, hhead, t3⟩
  unfold nsgaIscasText
  rw [t1]
  simp [joined]

/-- What `nsga2_minimize_epfl` prints. -/
theorem C122_nsga_epfl (hr : Nearest rnd) (hd : Dec100 dec) (hc : DecToDouble rnd cv) (hfl : FloatConversion fl)
    (asserts : Bool) (files : String → List AigEvent × Bool) (rs : Nat → Nat) (ni no : Nat → Nat)
    (es : Nat → List AigEvent) (pops : Nat → Nat → List (List ℚ)) (fuel : Nat) (mgr : Nat → Mgr)
    (hfiles : ∀ file ∈ nsgaEpflFiles, ∃ path, epflFilepath file = .ok path ∧
      CircuitFile files path (ni file) (no file) (es file) ∧ ni file ≤ 1000 ∧
      ∀ f : List (BDD (mgr file)), IsCircuit (es file) (no file) f → GeneticOk f (pops file) fuel)
    (n : Nat → Nat) (hn : ∀ file, n file ≤ 2 ^ 50) :
    ∃ text rows, nsgaEpflText rnd dec cv fl asserts files rs pops fuel (fun file => n file) mgr = (text, none) ∧
      readTable ',' text = some (["File".toList, "Orig. Size".toList, "Approx. Size".toList, "ER".toList, "Time".toList] ::
        rows) ∧
      List.Forall₂ (fun file row => ∃ name, epflFilename file = .ok name ∧ ∃ f : List (BDD (mgr file)), ∃ res K,
        IsCircuit (es file) (no file) f ∧ 1 ≤ K ∧ K ≤ nodeCount f + 1 ∧
        ReportsF f (ni file) false double005 0 (13421773 / 2 ^ 28) 0 (SeenIn f (pops file) K) res ∧
        CircuitFields name (nodeCount f) res.nodeCount res.errorRate (n file) row)
        [4, 0, 1, 2, 3, 5, 6, 7, 8, 9] rows := by
  obtain ⟨text, rows, t1, t2, t3⟩ := comma_rows (fun file : Nat => do
    let r ← nsgaEpflRowF rnd dec cv fl asserts files rs file (pops file) fuel (mgr file)
    circuitLine (timeTextN rnd (n file : Int)) r.1.toList r.2.1 r.2.2.1 r.2.2.2)
    (fun file row => ∃ name, epflFilename file = .ok name ∧ ∃ f : List (BDD (mgr file)), ∃ res K,
        IsCircuit (es file) (no file) f ∧ 1 ≤ K ∧ K ≤ nodeCount f + 1 ∧
        ReportsF f (ni file) false double005 0 (13421773 / 2 ^ 28) 0 (SeenIn f (pops file) K) res ∧
        CircuitFields name (nodeCount f) res.nodeCount res.errorRate (n file) row) nsgaEpflFiles fun file hfile => by
      obtain ⟨path, p1, c1, c2, c3⟩ := hfiles file hfile
      obtain ⟨name, n1, n2⟩ := filename_plain (.inr rfl) p1
      obtain ⟨f, f1, f2⟩ := (C111_circuits (m := mgr file) hr hd hc hfl asserts files rs (ni file) (no file) (es file) c2).2
        file path name p1 n1 c1
      obtain ⟨o1, o2, o3, o4⟩ := c3 f f1
      obtain ⟨res, K, r1, r2, r3, r4, -⟩ := f2 o1 o2 (pops file) o4 fuel o3
      obtain ⟨fs, k1, k2, k3, k4⟩ := circuitLine_fields (C121_time hr (n file) (hn file)).2 n2 (nodeCount f)
        res.nodeCount (shows_er r4)
      refine ⟨fs, k1, k2, ?_, name, n1, f, res, K, f1, r2, r3, r4, k4⟩
      simp only [r1, bind, Except.bind]
      exact k3
  have hhead := readTable_comma (fs := ["File".toList, "Orig. Size".toList, "Approx. Size".toList, "ER".toList,
    "Time".toList]) (by simp) (by decide) t2
  refine ⟨_, rows, ?_, hhead, t3⟩
  unfold nsgaEpflText
  rw [t1]
  simp [joined]

/-- What `nsga2_minimize_adders` prints: for 8, 16 and 32 bits the sizes, both errors, each within its limit, and the
time. -/
theorem C122_nsga_adders (hr : Nearest rnd) (hd : Dec100 dec) (hc : DecToDouble rnd cv) (hfl : FloatConversion fl)
    (rs : Nat → Nat) (pops : Nat → Nat → List (List ℚ)) (fuel : Nat) (mgr : Nat → Mgr)
    (hok : ∀ bits ∈ [8, 16, 32], ∀ f : List (BDD (mgr bits)), (∀ x, uAt f x = opA bits x + opB bits x) →
      f.length = bits + 1 → nodeCount f < 2 ^ 31 ∧ nodeCount f < fuel ∧
        ∀ k, ∀ ind ∈ pops bits k, ind.length = (supportPositions f).length)
    (n : Nat → Nat) (hn : ∀ bits, n bits ≤ 2 ^ 50) :
    ∃ text rows, nsgaAddersText rnd dec cv fl rs pops fuel (fun bits => n bits) mgr = (text, none) ∧
      readTable ',' text = some (["Bits".toList, "Orig. Size".toList, "Approx. Size".toList, "ER".toList, "ACR".toList,
        "Time".toList] :: rows) ∧
      List.Forall₂ (fun (e : Nat × ℚ) row => ∃ f : List (BDD (mgr e.1)), ∃ res K,
        (∀ x, uAt f x = opA e.1 x + opB e.1 x) ∧ f.length = e.1 + 1 ∧ 1 ≤ K ∧ K ≤ nodeCount f + 1 ∧
        ReportsF f (2 * e.1) true double005 e.2 (13421773 / 2 ^ 28) e.2 (SeenIn f (pops e.1) K) res ∧
        ∃ a b c d g, row = [a, b, c, d, g, durationText (n e.1)] ∧ readNat a = some e.1 ∧
          readNat b = some (nodeCount f) ∧ readNat c = some res.nodeCount ∧ Shows d res.errorRate ∧ Shows g res.ace ∧
          ShowsAtMost d (1 / 20) ∧ ShowsAtMost g e.2)
        [(8, 7), (16, 35), (32, 9000)] rows := by
  obtain ⟨text, rows, t1, t2, t3⟩ := comma_rows (fun e : Nat × ℚ => do
    let r ← nsgaAdderRowF rnd dec cv fl rs e.1 e.2 (pops e.1) fuel (mgr e.1)
    nsgaAdderLine rnd (n e.1 : Int) r.1 r.2.1 r.2.2.1 r.2.2.2.1 r.2.2.2.2)
    (fun (e : Nat × ℚ) row => ∃ f : List (BDD (mgr e.1)), ∃ res K,
        (∀ x, uAt f x = opA e.1 x + opB e.1 x) ∧ f.length = e.1 + 1 ∧ 1 ≤ K ∧ K ≤ nodeCount f + 1 ∧
        ReportsF f (2 * e.1) true double005 e.2 (13421773 / 2 ^ 28) e.2 (SeenIn f (pops e.1) K) res ∧
        ∃ a b c d g, row = [a, b, c, d, g, durationText (n e.1)] ∧ readNat a = some e.1 ∧
          readNat b = some (nodeCount f) ∧ readNat c = some res.nodeCount ∧ Shows d res.errorRate ∧ Shows g res.ace ∧
          ShowsAtMost d (1 / 20) ∧ ShowsAtMost g e.2) nsgaAdderArgs fun e he => by
      obtain ⟨f, f1, f2, f3⟩ := C111_adders (m := mgr e.1) hr hd hc hfl rs e he
      have hmem : e.1 ∈ [8, 16, 32] := by
        have : ∀ e ∈ nsgaAdderArgs, e.1 ∈ [8, 16, 32] := by simp [nsgaAdderArgs]
        exact this e he
      have hsix : SixDigits e.2 ∧ 0 ≤ e.2 := by
        have : ∀ e ∈ nsgaAdderArgs, SixDigits e.2 ∧ 0 ≤ e.2 := by
          intro e he
          simp only [nsgaAdderArgs, List.mem_cons, List.not_mem_nil, or_false] at he
          rcases he with rfl | rfl | rfl
          · exact ⟨⟨7, 0, by norm_num, by norm_num⟩, by norm_num⟩
          · exact ⟨⟨35, 0, by norm_num, by norm_num⟩, by norm_num⟩
          · exact ⟨⟨9000, 0, by norm_num, by norm_num⟩, by norm_num⟩
        exact this e he
      obtain ⟨o1, o2, o3⟩ := hok e.1 hmem f f1 f2
      obtain ⟨res, K, r1, r2, r3, r4, -⟩ := f3 o1 (pops e.1) o3 fuel o2
      have hace : res.ace ≤ e.2 := by
        rcases r4.figures with ⟨-, -, h⟩ | ⟨g, -, -, -, -, h, -⟩
        · rw [h]; exact hsix.2
        · exact (h rfl).le
      refine ⟨[natText e.1, natText (nodeCount f), natText res.nodeCount, formatG res.errorRate, formatG res.ace,
        durationText (n e.1)], by simp, ?_, ?_, f, res, K, f1, f2, r2, r3, r4, _, _, _, _, _, rfl, readNat_natText _,
        readNat_natText _, readNat_natText _, shows_number _, shows_number _, shows_er r4, shows_le hsix.1 hace⟩
      · intro x hx
        simp only [List.mem_cons, List.not_mem_nil, or_false] at hx
        rcases hx with rfl | rfl | rfl | rfl | rfl | rfl
        · exact plain_nat _
        · exact plain_nat _
        · exact plain_nat _
        · exact plain_number _
        · exact plain_number _
        · exact plain_duration _
      · simp only [r1, bind, Except.bind]
        simp [nsgaAdderLine, (C121_time hr (n e.1) (hn e.1)).2, joined, bind, Except.bind]
  have hhead := readTable_comma (fs := ["Bits".toList, "Orig. Size".toList, "Approx. Size".toList, "ER".toList,
    "ACR".toList, "Time".toList]) (by simp) (by decide) t2
  refine ⟨_, rows, ?_, hhead, t3⟩
  unfold nsgaAddersText
  rw [t1]
  simp [joined]

/-! ## Comparison of adders -/

/-- `er_ace_adder_comparison` prints exactly this, whatever the random numbers and orders of variables. -/
theorem C122_comparison {A : AddEnv} (hr : Nearest A.rnd) (he : A.eps = 1 / 10 ^ 12) (hd : Dec100 dec)
    (hc : DecToDouble A.rnd cv) (asserts : Bool) (rs : Nat → Nat → Nat → Nat) (fuel : Nat)
    (mgr : ApproxAdder × Nat × Nat × Nat → Mgr) (last : Mgr) (s : CTab) (hs : s.Sep A.eps) :
    comparisonText A dec cv lg asserts rs fuel mgr last s =
      (("GeAr_N16_R6_P4;0.0307617;31.5;1024\n" ++ "GeAr_N16_R4_P4;0.0585938;127.5;4096\n" ++
        "GeAr_N16_R4_P8;0.00183105;7.5;4096\n" ++ "GeAr_N16_R2_P4;0.11554;511.5;16640\n" ++ "0.125\n").toList, none) := by
  have row := fun m => C118_comparison (m := m) (lg := lg) hr he hd hc asserts rs fuel s hs
  simp only [adderComparisonRows, List.map_cons, List.map_nil, List.cons.injEq, and_true] at row
  unfold comparisonText
  simp only [adderComparisonRows, List.map_cons, List.map_nil, (row (mgr _)).1, (row (mgr _)).2.1, (row (mgr _)).2.2.1,
    (row (mgr _)).2.2.2, C106_last, bind, Except.bind]
  decide +kernel

/-! ### Examples -/

-- files that are read; `sixFile` is a circuit with six inputs
example : (∀ file ∈ minimizeIscasFiles, ∃ path, iscasFilepath file = .ok path ∧
    CircuitFile sixFile path 6 1 (sixFile path).1.tail ∧ 1 ≤ 1 ∧ 6 ≤ 1000) ∧
    (∀ file ∈ minimizeEpflFiles, ∃ path, epflFilepath file = .ok path ∧
      CircuitFile sixFile path 6 1 (sixFile path).1.tail ∧ 1 ≤ 1 ∧ 6 ≤ 1000) := by
  have h : (∀ file ∈ minimizeIscasFiles, (iscasFilepath file).toOption.isSome = true) ∧
      ∀ file ∈ minimizeEpflFiles, (epflFilepath file).toOption.isSome = true := by decide +kernel
  have use : ∀ {r : Except Fault String}, r.toOption.isSome = true → ∃ path, r = .ok path ∧
      CircuitFile sixFile path 6 1 (sixFile path).1.tail ∧ 1 ≤ 1 ∧ 6 ≤ 1000 := fun {r} h => by
    cases r with
    | error e => simp [Except.toOption] at h
    | ok p => exact ⟨p, rfl, sixFile_circuit p, by norm_num, by norm_num⟩
  exact ⟨fun f hf => use (h.1 f hf), fun f hf => use (h.2 f hf)⟩

-- a line and a line of a bucket
example : circuitLine (.ok (durationText 1500000000)) "c432.aig".toList 7 1 (1 / 64) =
      .ok "c432.aig, 7, 1, 0.015625, 1 s\n".toList ∧
    bucketLine [3, 19] (some (20, 63 / 2048, 7 / 3)) = "3;19;20;0.0307617;2.33333\n".toList ∧
    bucketLine [0, 1] none = "0;1;NaN;NaN;NaN\n".toList ∧
    readTable ',' "c432.aig, 7, 1, 0.015625, 1 s\n".toList =
      some [["c432.aig".toList, "7".toList, "1".toList, "0.015625".toList, "1 s".toList]] := by decide +kernel

-- a function and individuals that suit the genetic minimisation
example : GeneticOk ([(BDD.var 0).and (.var 5)] : List (BDD .id)) (fun _ => [[0, 1], [2, 0]]) 100 := by
  refine ⟨⟨(BDD.var 0).and (.var 5), by simp, fun _ => true, fun _ => false, by decide +kernel⟩, by decide +kernel, by decide +kernel, fun _ ind hi => ?_⟩
  have : (supportPositions ([(BDD.var 0).and (.var 5)] : List (BDD .id))).length = 2 := by decide +kernel
  rw [this]
  simp only [List.mem_cons, List.not_mem_nil, or_false] at hi
  rcases hi with rfl | rfl <;> rfl

end Verif

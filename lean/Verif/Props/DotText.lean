import Verif.Proofs.DotText
import Verif.Props.DumpDot

/-!
# Properties of the text written by `dump_dot_readable`

C119: the text is a graph in the DOT language (`readDot` of `Verif/SpecDot.lean`), and what it draws are the functions.
-/

namespace Verif

variable {m : Mgr}

/-- C119.  Without quotation marks and backslashes in the given function names and with matching angle brackets in all
given names, the text is a graph in the DOT language.  Its labelled nodes are the names of the functions and the
nodes of the functions, a name labelled with itself; if the names are distinct and the pointers are, no node is
labelled twice.  The lines drawn are those from the names to the functions and two for every inner node: one without
style to its then child and a dashed one to its else child. -/
theorem C119_graph (asserts : Bool) (conf : DotConf) (addr : Edge → Nat) (bdds : List (BDD m))
    (fnames vnames : List (List Char)) (enforce : Bool) (left : Option Bool) (hc : conf.Plain)
    (h1 : fnames = [] ∨ fnames.length = bdds.length) (h2 : vnames = [] ∨ Fits vnames.length bdds)
    (hf : ∀ f ∈ fnames, quoteFree f = true ∧ anglesMatch 0 f = true)
    (hv : ∀ l ∈ vnames, anglesMatch 0 l = true) :
    ∃ t r, dumpDotText asserts conf addr bdds fnames vnames enforce left = .ok t ∧ readDot t = some r ∧
      ∃ names : List (List Char), names.length = bdds.length ∧
        (fnames ≠ [] → names = fnames.map (fun f => '<' :: f ++ ['>'])) ∧
        (fnames = [] → bdds.length ≤ 2 ^ 31 → names = numberedNames bdds.length) ∧
        (∀ n ∈ names, (.text n, dotIdOf n) ∈ r.labels) ∧
        (∀ i : DotId, i ∈ r.labels.map Prod.fst ↔
          (∃ n ∈ names, i = .text n) ∨ ∃ a, DrawnNode bdds a ∧ i = .text (ptrText (addr a))) ∧
        (fnames.Nodup → bdds.length ≤ 2 ^ 32 → Addresses addr bdds → (r.labels.map Prod.fst).Nodup) ∧
        ∀ (i j : DotId) (s : Option DotId), (i, j, s) ∈ r.lines ↔
          (∃ p ∈ names.zip bdds, i = .text p.1 ∧ j = .text (ptrText (addr p.2.edge)) ∧ s = none) ∨
          ∃ a v t c e, DrawnNode bdds a ∧ a.n = .node v t c e ∧ i = .text (ptrText (addr a)) ∧
            (j = .text (ptrText (addr ⟨a.neg, t⟩)) ∧ s = none ∨
              j = .text (ptrText (addr ⟨a.neg ^^ c, e⟩)) ∧ s = some (.text "dashed".toList)) := by
  obtain ⟨g, hg, hd⟩ := dumpDot_ok asserts bdds fnames vnames enforce left h1 h2
  obtain ⟨t, r, ht, hr, hL, hE⟩ := dumpDotText_ok asserts hc addr bdds enforce left hf hv hg
  have hn := functionNames_ok bdds.length hf
  have hnodes : ∀ a : Edge, a ∈ dotNodes g ↔ DrawnNode bdds a := by
    obtain ⟨g', hg', _, h, _⟩ := C70_nodes asserts bdds fnames vnames enforce left h1 h2
    rw [hg] at hg'
    cases hg'
    exact h
  have hnd : (dotNodes g).Nodup := by
    obtain ⟨g', hg', h, _⟩ := C70_nodes asserts bdds fnames vnames enforce left h1 h2
    rw [hg] at hg'
    cases hg'
    exact h
  have hfst : r.labels.map Prod.fst = g.filterMap fun st => (stmtLabel addr st).map Prod.fst := by
    rw [hL, List.map_filterMap]
  refine ⟨t, r, ht, hr, functionNames bdds.length fnames, ?_, ?_, ?_, ?_, ?_, ?_, ?_⟩
  · by_cases hf : fnames = []
    · subst hf; exact (functionNames_default _).1
    · rw [functionNames_given hf, List.length_map]
      exact h1.resolve_left hf
  · intro hf
    rw [functionNames_given hf]
    rfl
  · intro hf hle
    subst hf
    exact functionNames_numbered _ hle
  · intro n hm
    rw [← hd.fnames] at hm
    obtain ⟨st, hst, h⟩ := List.mem_filterMap.mp hm
    cases st <;> cases h
    rw [hL]
    exact List.mem_filterMap.mpr ⟨_, hst, rfl⟩
  · intro i
    rw [hfst, List.mem_filterMap]
    constructor
    · rintro ⟨st, hst, h⟩
      cases st with
      | funName n =>
        left
        refine ⟨n, ?_, (Option.some.inj h).symm⟩
        rw [← hd.fnames]
        exact List.mem_filterMap.mpr ⟨_, hst, rfl⟩
      | node n l => exact .inr ⟨n, (hnodes n).mp (List.mem_filterMap.mpr ⟨_, hst, rfl⟩), (Option.some.inj h).symm⟩
      | terminal n b => exact .inr ⟨n, (hnodes n).mp (List.mem_filterMap.mpr ⟨_, hst, rfl⟩), (Option.some.inj h).symm⟩
      | _ => cases h
    · rintro (⟨n, hm, rfl⟩ | ⟨a, ha, rfl⟩)
      · rw [← hd.fnames] at hm
        obtain ⟨st, hst, h⟩ := List.mem_filterMap.mp hm
        cases st <;> cases h
        exact ⟨_, hst, rfl⟩
      · obtain ⟨st, hst, h⟩ := List.mem_filterMap.mp ((hnodes a).mpr ha)
        cases st <;> cases h
        · exact ⟨_, hst, rfl⟩
        · exact ⟨_, hst, rfl⟩
  · intro hfn hlen haddr
    rw [hfst]
    refine nodup_filterMap_or (A := fun st => match st with | .funName n => some (.text n) | _ => none)
      (B := fun st => match st with
        | .node n _ => some (.text (ptrText (addr n)))
        | .terminal n _ => some (.text (ptrText (addr n)))
        | _ => none) g ?_ ?_ ?_ ?_
    · intro st b h
      cases st <;> first | exact .inl h | exact .inr h
    · have e : (g.filterMap fun st => match st with | .funName n => some (DotId.text n) | _ => none) =
          (dotNames g).map .text := by
        unfold dotNames
        rw [List.map_filterMap]
        congr 1
        funext st
        cases st <;> rfl
      rw [e, hd.fnames]
      refine List.Nodup.map (fun a b h => DotId.text.inj h) ?_
      by_cases hf : fnames = []
      · subst hf; exact (functionNames_default _).2 hlen
      · exact functionNames_given_nodup hf hfn
    · have e : (g.filterMap fun st => match st with
          | .node n _ => some (DotId.text (ptrText (addr n)))
          | .terminal n _ => some (DotId.text (ptrText (addr n)))
          | _ => none) = (dotNodes g).map fun n => .text (ptrText (addr n)) := by
        unfold dotNodes
        rw [List.map_filterMap]
        congr 1
        funext st
        cases st <;> rfl
      rw [e]
      refine List.Nodup.map_on (fun a ha b hb h => ?_) hnd
      exact haddr a b ((hnodes a).mp ha) ((hnodes b).mp hb) (ptrText_inj (DotId.text.inj h))
    · intro x hx y hy b h k
      cases x <;> cases h
      rename_i n
      have hm : n ∈ functionNames bdds.length fnames := by
        rw [← hd.fnames]
        exact List.mem_filterMap.mpr ⟨_, hx, rfl⟩
      cases y <;> cases k <;> exact name_ne_ptr (hn _ hm) _ rfl
  · intro i j s
    rw [hE, List.mem_filterMap]
    have hdn : ∀ {a : Edge} {v t c e}, DrawnNode bdds a → a.n = .node v t c e →
        ∃ f ∈ bdds, a ∈ f.edge.n.reach f.edge.neg := by
      rintro a v t c e (h | h) ha
      · rw [ha] at h; cases h
      · exact h
    constructor
    · rintro ⟨st, hst, h⟩
      cases st with
      | link n e =>
        have hl : (n, e) ∈ dotLinks g := List.mem_filterMap.mpr ⟨_, hst, rfl⟩
        rw [hd.links, List.zip_map_right, List.mem_map] at hl
        obtain ⟨p, hp, he⟩ := hl
        cases he
        cases h
        exact .inl ⟨p, hp, rfl, rfl, rfl⟩
      | solid x y =>
        cases h
        obtain ⟨hr', v, t, c, e, hx, rfl⟩ := (hd.mem_edges _ _ true).mp (mem_dotEdges.1.mpr hst)
        exact .inr ⟨x, v, t, c, e, .inr hr', hx, rfl, .inl ⟨rfl, rfl⟩⟩
      | dashed x y =>
        cases h
        obtain ⟨hr', v, t, c, e, hx, rfl⟩ := (hd.mem_edges _ _ false).mp (mem_dotEdges.2.mpr hst)
        exact .inr ⟨x, v, t, c, e, .inr hr', hx, rfl, .inr ⟨rfl, rfl⟩⟩
      | _ => cases h
    · rintro (⟨p, hp, rfl, rfl, rfl⟩ | ⟨a, v, t, c, e, ha, hx, rfl, ⟨rfl, rfl⟩ | ⟨rfl, rfl⟩⟩)
      · have hl : (p.1, p.2.edge) ∈ dotLinks g := by
          rw [hd.links, List.zip_map_right, List.mem_map]
          exact ⟨p, hp, rfl⟩
        obtain ⟨st, hst, h⟩ := List.mem_filterMap.mp hl
        cases st <;> cases h
        exact ⟨_, hst, rfl⟩
      · exact ⟨_, mem_dotEdges.1.mp ((hd.mem_edges a _ true).mpr ⟨hdn ha hx, v, t, c, e, hx, rfl⟩), rfl⟩
      · exact ⟨_, mem_dotEdges.2.mp ((hd.mem_edges a _ false).mpr ⟨hdn ha hx, v, t, c, e, hx, rfl⟩), rfl⟩

/-- C119.  Reading the text gives the functions: every variable has a label (the given one, if labels are given), and
from the node of a function, following the lines according to the labels, the label reached is the value of the
function, and only that. -/
theorem C119_draws (asserts : Bool) (conf : DotConf) (addr : Edge → Nat) (bdds : List (BDD m))
    (fnames vnames : List (List Char)) (enforce : Bool) (left : Option Bool) (hc : conf.Plain)
    (ha : Addresses addr bdds)
    (h1 : fnames = [] ∨ fnames.length = bdds.length) (h2 : vnames = [] ∨ Fits vnames.length bdds)
    (hf : ∀ f ∈ fnames, quoteFree f = true ∧ anglesMatch 0 f = true)
    (hv : ∀ l ∈ vnames, anglesMatch 0 l = true) (hs : ∀ l ∈ vnames, l ∉ ["&#8868;".toList, "&#8869;".toList]) :
    ∃ t r, dumpDotText asserts conf addr bdds fnames vnames enforce left = .ok t ∧ readDot t = some r ∧
      ∃ label : Nat → List Char,
        (∀ v l, vnames[v]? = some l → label v = l) ∧
        (vnames = [] → ∀ v, v + 1 < 2 ^ 31 → label v = subscripted 'x' (v + 1)) ∧
        (vnames.Nodup → Fits (2 ^ 32 - 1) bdds →
          ∀ f ∈ bdds, ∀ v ∈ f.supportIndices, ∀ f' ∈ bdds, ∀ w ∈ f'.supportIndices,
            label v = label w → v = w) ∧
        ∀ (x : Asg) (val : List Char → Bool),
          (∀ f ∈ bdds, ∀ v ∈ f.supportIndices, val (label v) = x v) →
          ∀ f ∈ bdds, ∀ b, DotFollow r val (.text (ptrText (addr f.edge))) b ↔ f.eval x = b := by
  obtain ⟨g, hg, hd⟩ := dumpDot_ok asserts bdds fnames vnames enforce left h1 h2
  obtain ⟨g', hg', _, _, _, _, _, label, l1, l0, l2, l3⟩ := C70_draws asserts bdds fnames vnames enforce left h1 h2
  rw [hg] at hg'
  cases hg'
  obtain ⟨t, r, ht, hr, hL, hE⟩ := dumpDotText_ok asserts hc addr bdds enforce left hf hv hg
  refine ⟨t, r, ht, hr, label, l1, l0, l2, fun x val hx f hfm b => ?_⟩
  rw [follow_iff hd (functionNames_ok _ hf) ha hL hE (variableNames_symbols _ hs) val
    (.inr ⟨f, hfm, DD.self_mem_reach _ _⟩) b]
  exact l3 x val hx f hfm b

/-- C119.  With distinct labels every assignment can be read off. -/
theorem C119_reads (asserts : Bool) (conf : DotConf) (addr : Edge → Nat) (bdds : List (BDD m))
    (fnames vnames : List (List Char)) (enforce : Bool) (left : Option Bool) (hc : conf.Plain)
    (ha : Addresses addr bdds)
    (h1 : fnames = [] ∨ fnames.length = bdds.length) (h2 : vnames = [] ∨ Fits vnames.length bdds)
    (hf : ∀ f ∈ fnames, quoteFree f = true ∧ anglesMatch 0 f = true)
    (hv : ∀ l ∈ vnames, anglesMatch 0 l = true) (hs : ∀ l ∈ vnames, l ∉ ["&#8868;".toList, "&#8869;".toList])
    (hn : vnames.Nodup) (hfit : Fits (2 ^ 32 - 1) bdds) :
    ∃ t r, dumpDotText asserts conf addr bdds fnames vnames enforce left = .ok t ∧ readDot t = some r ∧
      ∀ x : Asg, ∃ val : List Char → Bool, ∀ f ∈ bdds, ∀ b,
        DotFollow r val (.text (ptrText (addr f.edge))) b ↔ f.eval x = b := by
  obtain ⟨g, hg, hd⟩ := dumpDot_ok asserts bdds fnames vnames enforce left h1 h2
  obtain ⟨g', hg', hw⟩ := C70_reads asserts bdds fnames vnames enforce left h1 h2 hn hfit
  rw [hg] at hg'
  cases hg'
  obtain ⟨t, r, ht, hr, hL, hE⟩ := dumpDotText_ok asserts hc addr bdds enforce left hf hv hg
  refine ⟨t, r, ht, hr, fun x => ?_⟩
  obtain ⟨val, hval⟩ := hw x
  refine ⟨val, fun f hfm b => ?_⟩
  rw [follow_iff hd (functionNames_ok _ hf) ha hL hE (variableNames_symbols _ hs) val
    (.inr ⟨f, hfm, DD.self_mem_reach _ _⟩) b]
  exact hval f hfm b

/-- C119.  The appearance: names, inner nodes and terminals have the shapes and widths of the configuration, the distances
are those of the configuration, and lines have no arrow heads.  The names are in the first row, the nodes of each
variable in a row of their own in the order of the variables, the terminals in the last row.  Not drawn are edges from each
name to the next, if their order is enforced, edges from the first name through one node of every row to ⊤, and one from
the left terminal to the other, if one is given. -/
theorem C119_layout (asserts : Bool) (conf : DotConf) (addr : Edge → Nat) (bdds : List (BDD m))
    (fnames vnames : List (List Char)) (enforce : Bool) (left : Option Bool) (hc : conf.Plain)
    (h1 : fnames = [] ∨ fnames.length = bdds.length) (h2 : vnames = [] ∨ Fits vnames.length bdds)
    (hf : ∀ f ∈ fnames, quoteFree f = true ∧ anglesMatch 0 f = true)
    (hv : ∀ l ∈ vnames, anglesMatch 0 l = true) :
    ∃ t r, dumpDotText asserts conf addr bdds fnames vnames enforce left = .ok t ∧ readDot t = some r ∧
      readAttr t "nodesep" = some (.text conf.nodeSep) ∧ readAttr t "ranksep" = some (.text conf.rankSep) ∧
      ∃ names : List (List Char), names.length = bdds.length ∧
        (fnames ≠ [] → names = fnames.map (fun f => '<' :: f ++ ['>'])) ∧
        (∀ i as, (i, as) ∈ r.nodes → dotAttr as "label" ≠ none →
          (∃ n ∈ names, i = .text n ∧ Shaped as conf.nameShape conf.nameWidth) ∨
          ∃ a, DrawnNode bdds a ∧ i = .text (ptrText (addr a)) ∧
            if a.n = .one then Shaped as conf.terminalShape conf.terminalWidth
            else Shaped as conf.nodeShape conf.nodeWidth) ∧
        (∀ e ∈ r.edges, dotAttr e.2.2 "style" = some (.text "invis".toList) ∨
          dotAttr e.2.2 "arrowhead" = some (.text "none".toList)) ∧
        ∃ first inner last vars, readRows t = some ((.text "source".toList, first) ::
            inner.map (fun row => (.text "same".toList, row)) ++ [(.text "same".toList, last)]) ∧
          (∀ i, i ∈ first ↔ ∃ n ∈ names, i = .text n) ∧
          (∀ i, i ∈ last ↔ ∃ b, i = .text (ptrText (addr ⟨b, .one⟩))) ∧
          List.Forall₂ (fun row v => ∀ i, i ∈ row ↔ ∃ a, DrawnVar bdds v a ∧ i = .text (ptrText (addr a))) inner vars ∧
          vars.Pairwise (· < ·) ∧ (∀ v, v ∈ vars ↔ ∃ a, DrawnVar bdds v a) ∧
          ∃ picks : List DotId, List.Forall₂ (fun i row => i ∈ row) picks inner ∧
            r.hidden = (if enforce then steps (names.map .text) else []) ++
              steps ((names.take 1).map .text ++ picks ++ [.text (ptrText (addr Edge.one))]) ++
              (left.map fun b => (.text (ptrText (addr ⟨!b, .one⟩)), .text (ptrText (addr ⟨b, .one⟩)))).toList := by
  obtain ⟨g, hg, hd⟩ := dumpDot_ok asserts bdds fnames vnames enforce left h1 h2
  obtain ⟨t, links, nodes, ht, hl, hlv, hg', hi⟩ := dumpDotText_items asserts hc addr bdds enforce left hf hv hg
  have hread : readDot t = some ⟨g.flatMap (stmtNodes conf addr), g.flatMap (stmtEdges addr)⟩ := by
    rw [readDot, hi, Option.map_some, dumpItems_means conf addr bdds _ _ enforce left hl hlv hg']
  obtain ⟨terms, hterms, hrows⟩ := dumpItems_rows conf addr (functionNames bdds.length fnames)
    (variableNames (collectAll bdds {}).levels.length vnames) enforce left links (collectAll bdds {}).levels
  obtain ⟨vars, hv1, hv2, hv3⟩ := levels_vars (collectAll bdds {}).levels 0
  have hlen : (functionNames bdds.length fnames).length = bdds.length := by
    by_cases hf : fnames = []
    · subst hf; exact (functionNames_default _).1
    · rw [functionNames_given hf, List.length_map]
      exact h1.resolve_left hf
  have hattr : ∀ k : String, readAttr t k = graphAttr k.toList 0 (headerItems conf) := by
    intro k
    rw [readAttr, hi, Option.bind_some, dumpItems_attr]
  refine ⟨t, _, ht, hread, ?_, ?_, functionNames bdds.length fnames, ?_, ?_, ?_, ?_,
    (functionNames bdds.length fnames).map .text ++ (if enforce && decide ((functionNames bdds.length fnames).length > 1)
      then (functionNames bdds.length fnames).map .text else []),
    ((collectAll bdds {}).levels.filter (· ≠ [])).map (fun L => L.map fun n => .text (ptrText (addr n))), terms, vars,
    ?_, ?_, ?_, ?_, hv1, ?_, ((collectAll bdds {}).levels.filterMap List.head?).map fun n => .text (ptrText (addr n)),
    ?_, ?_⟩
  · rw [hattr]; rfl
  · rw [hattr]; rfl
  · exact hlen
  · intro hf
    rw [functionNames_given hf]
    rfl
  · intro i as hm hlab
    obtain ⟨st, hst, h⟩ := List.mem_flatMap.mp hm
    match st, hst, h with
    | .funName n, hst, h =>
      cases List.mem_singleton.mp h
      refine .inl ⟨n, ?_, rfl, rfl, rfl⟩
      rw [← hd.fnames]
      exact List.mem_filterMap.mpr ⟨_, hst, rfl⟩
    | .node n l, hst, h =>
      cases List.mem_singleton.mp h
      obtain ⟨h3, v, ⟨t', c', e', h4⟩, _⟩ := (hd.label n l).mp hst
      refine .inr ⟨n, .inr h3, rfl, ?_⟩
      rw [if_neg (by rw [h4]; simp)]
      exact ⟨rfl, rfl⟩
    | .terminal n b, hst, h =>
      cases List.mem_singleton.mp h
      have h3 := (hd.term n b).mp hst
      refine .inr ⟨n, .inl (by rw [h3]), rfl, ?_⟩
      rw [if_pos (by rw [h3])]
      exact ⟨rfl, rfl⟩
    | .invisible [] [n], hst, h =>
      cases List.mem_singleton.mp h
      exact absurd rfl hlab
    | .invisible [] [], _, h => cases h
    | .invisible [] (_ :: _ :: _), _, h => cases h
    | .invisible (_ :: _) _, _, h => cases h
    | .link _ _, _, h => cases h
    | .solid _ _, _, h => cases h
    | .dashed _ _, _, h => cases h
  · intro e hm
    obtain ⟨st, hst, h⟩ := List.mem_flatMap.mp hm
    cases st with
    | link n e' => cases List.mem_singleton.mp h; exact .inr rfl
    | solid n e' => cases List.mem_singleton.mp h; exact .inr rfl
    | dashed n e' => cases List.mem_singleton.mp h; exact .inr rfl
    | invisible ns es =>
      have : ∀ (ids : List DotId), e ∈ dotPath invisDefaults.edge ids → e.2.2 = invisDefaults.edge := by
        intro ids
        induction ids with
        | nil => intro h; cases h
        | cons a ids ih =>
          cases ids with
          | nil => intro h; cases h
          | cons b ids =>
            intro h
            rcases List.mem_cons.mp h with rfl | h
            · rfl
            · exact ih h
      rw [this _ h]
      exact .inl rfl
    | funName _ => cases h
    | node _ _ => cases h
    | terminal _ _ => cases h
  · rw [readRows, hi, Option.map_some, hrows, List.map_map]
    rfl
  · intro i
    rw [List.mem_append]
    constructor
    · rintro (h | h)
      · obtain ⟨n, hn, rfl⟩ := List.mem_map.mp h
        exact ⟨n, hn, rfl⟩
      · split at h
        · obtain ⟨n, hn, rfl⟩ := List.mem_map.mp h
          exact ⟨n, hn, rfl⟩
        · cases h
    · rintro ⟨n, hn, rfl⟩
      exact .inl (List.mem_map_of_mem hn)
  · intro i
    rw [hterms, Bool.exists_bool]
    exact Iff.rfl
  · rw [List.forall₂_map_left_iff]
    refine hv2.imp fun L v h i => ?_
    have := mem_level bdds (v := v) (L := L) (by simpa using h.2)
    constructor
    · intro hm
      obtain ⟨a, ha, rfl⟩ := List.mem_map.mp hm
      exact ⟨a, (this a).mp ha, rfl⟩
    · rintro ⟨a, ha, rfl⟩
      exact List.mem_map_of_mem ((this a).mpr ha)
  · intro v
    rw [hv3]
    constructor
    · rintro ⟨_, L, h, hne⟩
      obtain ⟨a, ha⟩ := List.exists_mem_of_ne_nil L hne
      exact ⟨a, (mem_level bdds (by simpa using h) a).mp ha⟩
    · rintro ⟨a, ha⟩
      obtain ⟨hi', hm'⟩ := collectAll_new bdds
      obtain ⟨h5, t', c', e', h6⟩ := ha
      have hne : a.n ≠ .one := by rw [h6]; simp
      have h3 := (hi'.mem a).mpr ⟨(hm' a).mpr (h5.resolve_left hne), hne⟩
      obtain ⟨L', hL', ha⟩ := List.mem_flatten.mp h3
      obtain ⟨k, hk⟩ := List.getElem?_of_mem hL'
      obtain ⟨t2, c2, e2, h4⟩ := hi'.index k L' a hk ha
      rw [h6] at h4
      cases h4
      exact ⟨Nat.zero_le _, L', by simpa using hk, List.ne_nil_of_mem ha⟩
  · have := levels_heads addr (collectAll bdds {}).levels
    rw [List.forall₂_map_right_iff] at this ⊢
    exact this
  · rw [stmt_hidden, hg']
    have e1 : ∀ g : List DotStmt, (∀ st ∈ g, stmtHidden addr st = []) → g.flatMap (stmtHidden addr) = [] :=
      fun g h => List.flatMap_eq_nil_iff.mpr h
    have k1 := e1 ((functionNames bdds.length fnames).map .funName) (by
      intro st hst
      obtain ⟨n, _, rfl⟩ := List.mem_map.mp hst
      rfl)
    have k2 := e1 links (by
      intro st hst
      rw [linkLoop_ok bdds _ 0 (by rw [Nat.zero_add]; exact le_of_eq hlen)] at hl
      cases hl
      obtain ⟨n, _, rfl⟩ := List.mem_map.mp hst
      rfl)
    have k3 := e1 nodes (by
      intro st hst
      obtain ⟨n, l, rfl⟩ := levelLoop_nodes _ _ _ _ hlv st hst
      rfl)
    have k4 := e1 ((collectAll bdds {}).levels.flatten.flatMap nodeEdges) (by
      intro st hst
      obtain ⟨⟨neg, d⟩, _, h⟩ := List.mem_flatMap.mp hst
      cases d with
      | one => cases h
      | node v t c e =>
        simp only [nodeEdges, List.mem_cons, List.not_mem_nil, or_false] at h
        rcases h with rfl | rfl <;> rfl)
    have k5 : (if enforce && decide ((functionNames bdds.length fnames).length > 1) then
          [DotStmt.invisible (functionNames bdds.length fnames) []] else []).flatMap (stmtHidden addr) =
        if enforce then steps ((functionNames bdds.length fnames).map .text) else [] := by
      generalize functionNames bdds.length fnames = fs
      cases enforce with
      | false => rfl
      | true =>
        match fs with
        | [] => rfl
        | [_] => rfl
        | a :: b :: fs =>
          rw [if_pos (by simp), if_pos rfl]
          simp [stmtHidden, hiddenIds, steps]
    have k6 : (terminalStmts left).flatMap (stmtHidden addr) =
        (left.map fun b => (DotId.text (ptrText (addr ⟨!b, .one⟩)), DotId.text (ptrText (addr ⟨b, .one⟩)))).toList := by
      cases left with
      | none => rfl
      | some b => cases b <;> rfl
    have k7 : [orderEdges (functionNames bdds.length fnames) (collectAll bdds {}).levels].flatMap (stmtHidden addr) =
        steps (((functionNames bdds.length fnames).take 1).map .text ++
          (((collectAll bdds {}).levels.filterMap List.head?).map fun n => DotId.text (ptrText (addr n))) ++
          [.text (ptrText (addr Edge.one))]) := by
      simp [orderEdges, stmtHidden, hiddenIds, steps]
    simp only [List.flatMap_append, k1, k2, k3, k4, k5, k6, k7, List.nil_append, List.append_nil]

/-- C119.  The default configuration can be written, so without names nothing is required but different pointers. -/
theorem C119_default (asserts : Bool) (addr : Edge → Nat) (bdds : List (BDD m)) (enforce : Bool) (left : Option Bool)
    (ha : Addresses addr bdds) (hfit : Fits (2 ^ 32 - 1) bdds) :
    ∃ t r, dumpDotText asserts {} addr bdds [] [] enforce left = .ok t ∧ readDot t = some r ∧
      ∀ x : Asg, ∃ val : List Char → Bool, ∀ f ∈ bdds, ∀ b,
        DotFollow r val (.text (ptrText (addr f.edge))) b ↔ f.eval x = b :=
  C119_reads asserts {} addr bdds [] [] enforce left
    ⟨by decide +kernel, by decide +kernel, by decide +kernel, by decide +kernel, by decide +kernel, by decide +kernel,
      by decide +kernel, by decide +kernel⟩
    ha (.inl rfl) (.inl rfl) (by simp) (by simp) (by simp) List.nodup_nil hfit

/-- C119.  The text is written, or the assertions fail, or the behaviour is undefined, exactly as described by C70. -/
theorem C119_outcome (asserts : Bool) (conf : DotConf) (addr : Edge → Nat) (bdds : List (BDD m))
    (fnames vnames : List (List Char)) (enforce : Bool) (left : Option Bool) :
    (dumpDotText true conf addr bdds fnames vnames enforce left = .error .assertion ↔
      ¬ ((fnames = [] ∨ fnames.length = bdds.length) ∧ (vnames = [] ∨ Fits vnames.length bdds))) ∧
    ((fnames = [] ∨ fnames.length = bdds.length) → (vnames = [] ∨ Fits vnames.length bdds) →
      ∃ t, dumpDotText asserts conf addr bdds fnames vnames enforce left = .ok t) ∧
    (bdds.length < fnames.length ∨ vnames ≠ [] ∧ ¬ Fits vnames.length bdds →
      dumpDotText false conf addr bdds fnames vnames enforce left = .error .ub) := by
  have key : ∀ (a : Bool) (e : Fault), dumpDotText a conf addr bdds fnames vnames enforce left = .error e ↔
      dumpDot a bdds fnames vnames enforce left = .error e := by
    intro a e
    have := dumpDotText_outcome a conf addr bdds fnames vnames enforce left
    revert this
    cases dumpDotText a conf addr bdds fnames vnames enforce left <;>
      cases dumpDot a bdds fnames vnames enforce left <;> intro h
    · cases h; exact ⟨fun h => by cases h; rfl, fun h => by cases h; rfl⟩
    · cases h
    · cases h
    · simp
  refine ⟨?_, ?_, ?_⟩
  · rw [key]
    exact C70_assertions bdds fnames vnames enforce left
  · intro h1 h2
    obtain ⟨g, hg, _⟩ := dumpDot_ok asserts bdds fnames vnames enforce left h1 h2
    cases h : dumpDotText asserts conf addr bdds fnames vnames enforce left with
    | ok t => exact ⟨t, rfl⟩
    | error e =>
      rw [key, hg] at h
      cases h
  · intro h
    rw [key]
    exact C70_ub bdds fnames vnames enforce left h

/-- C119.  Into a file: if it can be opened, it holds exactly the text afterwards; otherwise, and for all other files,
nothing changes. -/
theorem C119_file (asserts : Bool) (conf : DotConf) (addr : Edge → Nat) (canOpen : List Char → Bool) (files : Files)
    (bdds : List (BDD m)) (filename : List Char) (fnames vnames : List (List Char)) (enforce : Bool)
    (left : Option Bool) (h1 : fnames = [] ∨ fnames.length = bdds.length)
    (h2 : vnames = [] ∨ Fits vnames.length bdds) :
    ∃ t files', dumpDotText asserts conf addr bdds fnames vnames enforce left = .ok t ∧
      dumpDotToFile asserts conf addr canOpen files bdds filename fnames vnames enforce left = .ok files' ∧
      files' filename = (if canOpen filename then some t else files filename) ∧
      ∀ n, n ≠ filename → files' n = files n := by
  obtain ⟨t, ht⟩ := (C119_outcome asserts conf addr bdds fnames vnames enforce left).2.1 h1 h2
  unfold dumpDotToFile
  by_cases h : canOpen filename = true
  · refine ⟨t, fun n => if n = filename then some t else files n, ht, ?_, ?_, ?_⟩
    · rw [if_pos h, ht]
      rfl
    · simp [h]
    · intro n hn
      simp [hn]
  · refine ⟨t, files, ht, if_neg h, ?_, fun _ _ => rfl⟩
    rw [if_neg h]

/-! ## Limits -/

/-- Pointers for the nodes of `exampleDrawn`. -/
def exampleAddr (e : Edge) : Nat :=
  if e = Edge.one then 0x7f10 else if e = Edge.zero then 0x7f11 else
  match e.n with
  | .one => 0
  | .node 0 _ _ _ => if e.neg then 0x55a1 else 0x55a0
  | .node _ _ _ _ => if e.neg then 0x55c1 else 0x55c0

theorem exampleAddr_ok : Addresses exampleAddr exampleDrawn := by
  have hall : ∀ a : Edge, DrawnNode exampleDrawn a → a ∈ [Edge.one, Edge.zero] ++
      exampleDrawn.flatMap fun f => f.edge.n.reach f.edge.neg := by
    rintro ⟨neg, n⟩ (h | ⟨f, hf, h⟩)
    · cases h
      cases neg
      · exact List.mem_append_left _ List.mem_cons_self
      · exact List.mem_append_left _ (List.mem_cons_of_mem _ List.mem_cons_self)
    · exact List.mem_append_right _ (List.mem_flatMap.mpr ⟨f, hf, h⟩)
  have key : ∀ a ∈ [Edge.one, Edge.zero] ++ exampleDrawn.flatMap fun f => f.edge.n.reach f.edge.neg,
      ∀ b ∈ [Edge.one, Edge.zero] ++ exampleDrawn.flatMap fun f => f.edge.n.reach f.edge.neg,
        exampleAddr a = exampleAddr b → a = b := by decide +kernel
  exact fun a b h1 h2 => key a (hall a h1) b (hall b h2)

theorem text_none {x : Except Fault (List Char)} (h : x.toOption.map (fun t => (readDot t).isNone) = some true) :
    ∃ t, x = .ok t ∧ readDot t = none := by
  cases x with
  | error e => cases h
  | ok t => exact ⟨t, rfl, Option.isNone_iff_eq_none.mp (Option.some.inj h)⟩

theorem text_some {x : Except Fault (List Char)} (P : DotGraph → Bool)
    (h : (x.toOption.bind readDot).map P = some true) : ∃ t r, x = .ok t ∧ readDot t = some r ∧ P r = true := by
  cases x with
  | error e => cases h
  | ok t =>
    change (readDot t).map P = some true at h
    obtain ⟨r, hr, hp⟩ := Option.map_eq_some_iff.mp h
    exact ⟨t, r, rfl, hr, hp⟩

/-- C119 fails for a function name with a quotation mark: the text is not a graph. -/
theorem C119_quote_false : ∃ t, dumpDotText true {} exampleAddr exampleDrawn ["a\"b".toList, "c".toList] [] true none =
    .ok t ∧ readDot t = none := text_none (by decide +kernel)

/-- C119 fails for a variable name with an angle bracket. -/
theorem C119_angle_false : ∃ t, dumpDotText true {} exampleAddr exampleDrawn [] ["a<b".toList, "c".toList] true none =
    .ok t ∧ readDot t = none := text_none (by decide +kernel)

/-- C119 fails for a configuration with a small width such as `0.00001f`, which is printed as `1e-05`: this is not a
number in the DOT language. -/
theorem C119_width_false : ∃ t, dumpDotText true { nodeWidth := "1e-05".toList } exampleAddr exampleDrawn [] [] true
    none = .ok t ∧ readDot t = none := text_none (by decide +kernel)

/-- C119 fails if a variable is called `&#8868;`: its nodes cannot be told from the terminal. -/
theorem C119_symbol_false : ∃ t r, dumpDotText true {} exampleAddr exampleDrawn [] ["&#8868;".toList, "b".toList] true
      none = .ok t ∧ readDot t = some r ∧
    ∃ f ∈ exampleDrawn, f.eval (fun _ => true) = false ∧
      DotFollow r (fun _ => true) (.text (ptrText (exampleAddr f.edge))) true := by
  obtain ⟨t, r, ht, hr, hm⟩ := text_some (x := dumpDotText true {} exampleAddr exampleDrawn []
    ["&#8868;".toList, "b".toList] true none)
    (fun r => decide ((DotId.text (ptrText (exampleAddr (exampleDrawn.head (by decide)).edge)),
      DotId.html "&#8868;".toList) ∈ r.labels)) (by decide +kernel)
  exact ⟨t, r, ht, hr, _, List.head_mem _, by decide +kernel, .top (of_decide_eq_true hm)⟩

/-- C119: the header sets the direction of all edges to `non`, which is none of the directions of the DOT language. -/
theorem C119_dir_false : ∃ t r, dumpDotText true {} exampleAddr exampleDrawn [] [] true none = .ok t ∧
    readDot t = some r ∧ r.edges ≠ [] ∧ ∀ e ∈ r.edges, ∃ d, dotAttr e.2.2 "dir" = some (.text d) ∧
      d ∉ ["forward".toList, "back".toList, "both".toList, "none".toList] := by
  obtain ⟨t, r, ht, hr, h⟩ := text_some (x := dumpDotText true {} exampleAddr exampleDrawn [] [] true none)
    (fun r => decide (r.edges ≠ [] ∧ ∀ e ∈ r.edges, dotAttr e.2.2 "dir" = some (.text "non".toList)))
    (by decide +kernel)
  have h := of_decide_eq_true h
  exact ⟨t, r, ht, hr, h.1, fun e he => ⟨_, h.2 e he, by decide +kernel⟩⟩

/-! ## Examples -/

example : DotConf.Plain {} ∧ (∀ f ∈ ["sum <SUB>0</SUB>".toList, "b".toList], quoteFree f = true ∧ anglesMatch 0 f = true) ∧
    (∀ l ∈ ["a".toList, "<B>b</B>".toList], anglesMatch 0 l = true ∧ l ∉ ["&#8868;".toList, "&#8869;".toList]) :=
  ⟨⟨by decide +kernel, by decide +kernel, by decide +kernel, by decide +kernel, by decide +kernel, by decide +kernel,
      by decide +kernel, by decide +kernel⟩, by decide +kernel, by decide +kernel⟩

/-- The text of a drawing is read. -/
example : (match dumpDotText true {} exampleAddr exampleDrawn ["sum <SUB>0</SUB>".toList, "b".toList] [] true (some true) with
    | .ok t => (readDot t).map fun r => (r.nodes.length, r.labels.length, r.edges.length, r.lines.length)
    | .error _ => none) = some (7, 7, 13, 8) := by decide +kernel

/-- Its rows: two names (mentioned twice), a row for each variable, and the terminals (mentioned twice). -/
example : (dumpDotText true {} exampleAddr exampleDrawn ["a".toList, "b".toList] [] true (some true)).toOption.bind
    (fun t => (readRows t).map fun rows => rows.map fun r => r.2.length) = some [4, 1, 2, 4] := by decide +kernel

end Verif

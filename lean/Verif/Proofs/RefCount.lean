import Verif.SpecMemory
import Verif.Proofs.Size

/-! # Pointers into the unique table -/

namespace Verif

variable {m : Mgr}

namespace NodeTable

theorem Valid.node_eq {H : NodeTable} (hv : H.Valid) {a : Nat} {d d' : DD} (h : (a, d) ∈ H.table) (h' : (a, d') ∈ H.table) :
    d = d' := by
  have := List.inj_on_of_nodup_map hv.addrs h h' rfl
  exact congrArg Prod.snd this

theorem Valid.addr_eq {H : NodeTable} (hv : H.Valid) {a a' : Nat} {d : DD} (h : (a, d) ∈ H.table) (h' : (a', d) ∈ H.table) :
    a = a' := by
  have := List.inj_on_of_nodup_map hv.nodes h h' rfl
  exact congrArg Prod.fst this

theorem Valid.nodeAt {H : NodeTable} (hv : H.Valid) {a : Nat} {d : DD} (h : (a, d) ∈ H.table) : H.nodeAt a = .ok d := by
  unfold NodeTable.nodeAt
  cases hf : H.table.find? (fun x => x.1 = a) with
  | none =>
    have := List.find?_eq_none.mp hf _ h
    simp at this
  | some x =>
    have h1 := List.mem_of_find?_eq_some hf
    have h2 := List.find?_some hf
    obtain ⟨xa, xd⟩ := x
    simp only [decide_eq_true_eq] at h2
    subst h2
    rw [hv.node_eq h h1]

theorem Valid.addrOf {H : NodeTable} (hv : H.Valid) {a : Nat} {d : DD} (h : (a, d) ∈ H.table) : H.addrOf d = .ok a := by
  unfold NodeTable.addrOf
  cases hf : H.table.find? (fun x => x.2 = d) with
  | none =>
    have := List.find?_eq_none.mp hf _ h
    simp at this
  | some x =>
    have h1 := List.mem_of_find?_eq_some hf
    have h2 := List.find?_some hf
    obtain ⟨xa, xd⟩ := x
    simp only [decide_eq_true_eq] at h2
    subst h2
    rw [hv.addr_eq h h1]

theorem live_iff {H : NodeTable} {d : DD} : H.live d = true ↔ H.InUse d := by
  simp only [live, List.any_eq_true, Bool.and_eq_true, decide_eq_true_eq, InUse, Held]
  constructor
  · rintro ⟨⟨a, r⟩, h1, h2, h3⟩
    exact ⟨r, ⟨a, h1, h2⟩, h3⟩
  · rintro ⟨r, ⟨a, h1, h2⟩, h3⟩
    exact ⟨⟨a, r⟩, h1, h2, h3⟩

theorem InUse.sub {H : NodeTable} {d s : DD} (h : H.InUse d) (hs : s ∈ d.subs) : H.InUse s := by
  obtain ⟨r, h1, h2⟩ := h
  exact ⟨r, h1, subs_trans h2 hs⟩

theorem Held.inUse {H : NodeTable} {d : DD} (h : H.Held d) : H.InUse d := ⟨d, h, self_mem_subs d⟩

/-- Nodes in use keep their addresses and stay in use. -/
def Keeps (H H' : NodeTable) : Prop := ∀ a d, (a, d) ∈ H.table → H.InUse d → (a, d) ∈ H'.table ∧ H'.InUse d

theorem Keeps.refl (H : NodeTable) : Keeps H H := fun _ _ h h' => ⟨h, h'⟩

theorem Keeps.trans {H H' H'' : NodeTable} (h : Keeps H H') (h' : Keeps H' H'') : Keeps H H'' := fun a d h1 h2 =>
  let ⟨h3, h4⟩ := h a d h1 h2
  h' a d h3 h4

theorem keeps_of {H H' : NodeTable} (h : ∀ a d, (a, d) ∈ H.table → H.InUse d → (a, d) ∈ H'.table)
    (hr : ∀ a, H.refs a ≤ H'.refs a) : Keeps H H' := fun a d h1 h2 => by
  refine ⟨h a d h1 h2, ?_⟩
  obtain ⟨r, ⟨b, h3, h4⟩, h5⟩ := h2
  exact ⟨r, ⟨b, h b r h3 (Held.inUse ⟨b, h3, h4⟩), h4.trans_le (hr b)⟩, h5⟩

/-- A pointer to a node in use. -/
def HS (H : NodeTable) (p : Ptr) (e : Edge) : Prop := H.IsHandle p e ∧ H.InUse e.n

theorem HS.keep {H H' : NodeTable} (hk : Keeps H H') {p : Ptr} {e : Edge} (h : HS H p e) : HS H' p e :=
  let ⟨h1, h2⟩ := hk _ _ h.1.2 h.2
  ⟨⟨h.1.1, h1⟩, h2⟩

theorem HS.inj {H : NodeTable} (hv : H.Valid) {p q : Ptr} {e e' : Edge} (h : HS H p e) (h' : HS H q e') : p = q ↔ e = e' := by
  obtain ⟨⟨h1, h2⟩, -⟩ := h
  obtain ⟨⟨h1', h2'⟩, -⟩ := h'
  obtain ⟨pn, pa⟩ := p
  obtain ⟨qn, qa⟩ := q
  obtain ⟨en, ed⟩ := e
  obtain ⟨en', ed'⟩ := e'
  simp only at h1 h2 h1' h2'
  subst h1 h1'
  simp only [Ptr.mk.injEq, Edge.mk.injEq]
  constructor
  · rintro ⟨h3, rfl⟩
    exact ⟨h3, hv.node_eq h2 h2'⟩
  · rintro ⟨h3, rfl⟩
    exact ⟨h3, hv.addr_eq h2 h2'⟩

/-! ### The single steps -/

theorem ref_ok {H : NodeTable} (hv : H.Valid) {p : Ptr} {d : DD} (h : (p.addr, d) ∈ H.table) :
    ∃ H', H.ref p = .ok H' ∧ H'.Valid ∧ H'.table = H.table ∧ H'.calls = H.calls ∧
      ∀ a, H'.refs a = H.refs a + if a = p.addr then 1 else 0 := by
  refine ⟨{ H with refs := Function.update H.refs p.addr (H.refs p.addr + 1) }, ?_, ⟨hv.addrs, hv.nodes, hv.closed, ?_⟩,
    rfl, rfl, ?_⟩
  · simp only [ref, hv.nodeAt h, bind, Except.bind]
  · intro a ha
    have : a ≠ p.addr := by
      rintro rfl
      exact ha _ h
    simp only [Function.update, this, dite_false]
    exact hv.unused a ha
  · intro a
    by_cases ha : a = p.addr
    · subst ha; simp
    · simp [Function.update, ha]

theorem deref_ok {H : NodeTable} (hv : H.Valid) {p : Ptr} {d : DD} (h : (p.addr, d) ∈ H.table) (hr : 0 < H.refs p.addr) :
    ∃ H', H.deref p = .ok H' ∧ H'.Valid ∧ H'.table = H.table ∧ H'.calls = H.calls ∧
      ∀ a, H'.refs a = H.refs a - if a = p.addr then 1 else 0 := by
  refine ⟨{ H with refs := Function.update H.refs p.addr (H.refs p.addr - 1) }, ?_, ⟨hv.addrs, hv.nodes, hv.closed, ?_⟩,
    rfl, rfl, ?_⟩
  · simp only [deref, hv.nodeAt h, bind, Except.bind, hr.ne', if_false]
  · intro a ha
    have : a ≠ p.addr := by
      rintro rfl
      exact ha _ h
    simp only [Function.update, this, dite_false]
    exact hv.unused a ha
  · intro a
    by_cases ha : a = p.addr
    · subst ha; simp
    · simp [Function.update, ha]

theorem collect_ok {H : NodeTable} (hv : H.Valid) : H.collect.Valid ∧ Keeps H H.collect := by
  have hmem : ∀ a d, (a, d) ∈ H.collect.table ↔ (a, d) ∈ H.table ∧ H.InUse d := fun a d => by
    simp only [collect, List.mem_filter, live_iff]
  have hk : Keeps H H.collect := keeps_of (fun a d h1 h2 => (hmem a d).mpr ⟨h1, h2⟩) (fun _ => le_rfl)
  refine ⟨⟨?_, ?_, ?_, ?_⟩, hk⟩
  · exact hv.addrs.sublist (List.filter_sublist.map _)
  · exact hv.nodes.sublist (List.filter_sublist.map _)
  · intro a d h s hs
    obtain ⟨h1, h2⟩ := (hmem a d).mp h
    obtain ⟨b, hb⟩ := hv.closed a d h1 s hs
    exact ⟨b, (hmem b s).mpr ⟨hb, h2.sub hs⟩⟩
  · intro a ha
    by_contra hne
    have hex : ∃ d, (a, d) ∈ H.table := by
      by_contra hcon
      push Not at hcon
      exact hne (hv.unused a hcon)
    obtain ⟨d, hd⟩ := hex
    exact ha d ((hmem a d).mpr ⟨hd, Held.inUse ⟨a, hd, Nat.pos_of_ne_zero hne⟩⟩)

theorem intern_ok {E : Env} (hE : E.Fresh) : ∀ (ds : List DD) (H : NodeTable), (H.table.map Prod.fst).Nodup →
    (H.table.map Prod.snd).Nodup → (intern E ds H).refs = H.refs ∧
      ((intern E ds H).table.map Prod.fst).Nodup ∧ ((intern E ds H).table.map Prod.snd).Nodup ∧
      (∀ x ∈ H.table, x ∈ (intern E ds H).table) ∧ (∀ d ∈ ds, ∃ a, (a, d) ∈ (intern E ds H).table) ∧
      ∀ x ∈ (intern E ds H).table, x ∈ H.table ∨ x.2 ∈ ds
  | [], H, h1, h2 => ⟨rfl, h1, h2, fun _ h => h, by simp, fun _ h => .inl h⟩
  | d :: ds, H, h1, h2 => by
    by_cases hd : H.table.any (fun x => x.2 = d) = true
    · obtain ⟨i1, i2, i3, i4, i5, i6⟩ := intern_ok hE ds H h1 h2
      rw [intern, if_pos hd]
      refine ⟨i1, i2, i3, i4, ?_, fun x hx => (i6 x hx).imp id (List.mem_cons_of_mem _)⟩
      intro d' hd'
      rcases List.mem_cons.mp hd' with rfl | hd'
      · obtain ⟨⟨a, d''⟩, hx, he⟩ := List.any_eq_true.mp hd
        simp only [decide_eq_true_eq] at he
        subst he
        exact ⟨a, i4 _ hx⟩
      · exact i5 d' hd'
    · rw [intern, if_neg hd]
      have hnot : d ∉ H.table.map Prod.snd := by
        intro h
        obtain ⟨x, hx, rfl⟩ := List.mem_map.mp h
        exact hd (List.any_eq_true.mpr ⟨x, hx, by simp⟩)
      have hfresh : E.alloc H.table d ∉ H.table.map Prod.fst := by
        intro h
        obtain ⟨x, hx, he⟩ := List.mem_map.mp h
        exact hE H.table d x hx he.symm
      obtain ⟨i1, i2, i3, i4, i5, i6⟩ := intern_ok hE ds { H with table := (E.alloc H.table d, d) :: H.table }
        (by simpa using ⟨by simpa using hfresh, h1⟩) (by simpa using ⟨by simpa using hnot, h2⟩)
      refine ⟨i1, i2, i3, fun x hx => i4 x (List.mem_cons_of_mem _ hx), ?_, ?_⟩
      · intro d' hd'
        rcases List.mem_cons.mp hd' with rfl | hd'
        · exact ⟨_, i4 _ (List.mem_cons_self ..)⟩
        · exact i5 d' hd'
      · intro x hx
        rcases i6 x hx with h | h
        · rcases List.mem_cons.mp h with rfl | h
          · exact .inr (List.mem_cons_self ..)
          · exact .inl h
        · exact .inr (List.mem_cons_of_mem _ h)

theorem ite_ok {E : Env} (hE : E.Fresh) {H : NodeTable} (hv : H.Valid) {f g h : Ptr} {bf bg bh : BDD m} (hf : HS H f bf.edge)
    (hg : HS H g bg.edge) (hh : HS H h bh.edge) :
    ∃ q H', H.ite m E f g h = .ok (q, H') ∧ H'.Valid ∧ Keeps H H' ∧ H'.refs = H.refs ∧
      H'.IsHandle q (BDD.ite bf bg bh).edge := by
  obtain ⟨H1, hH1⟩ : ∃ H1, H1 = if E.gc H.calls then H.collect else H := ⟨_, rfl⟩
  have hstep : H1.Valid ∧ Keeps H H1 ∧ H1.refs = H.refs := by
    rw [hH1]
    split
    · exact ⟨(collect_ok hv).1, (collect_ok hv).2, rfl⟩
    · exact ⟨hv, Keeps.refl H, rfl⟩
  obtain ⟨v1, k1, r1⟩ := hstep
  have n1 := v1.nodeAt (hf.keep k1).1.2
  have n2 := v1.nodeAt (hg.keep k1).1.2
  have n3 := v1.nodeAt (hh.keep k1).1.2
  obtain ⟨r, hr⟩ : ∃ r, r = (BDD.ite bf bg bh).edge := ⟨_, rfl⟩
  obtain ⟨i1, i2, i3, i4, i5, i6⟩ := intern_ok hE r.n.subs { H1 with calls := H1.calls + 1 } v1.addrs v1.nodes
  obtain ⟨H2, hH2⟩ : ∃ H2, H2 = intern E r.n.subs { H1 with calls := H1.calls + 1 } := ⟨_, rfl⟩
  rw [← hH2] at i1 i2 i3 i4 i5 i6
  have v2 : H2.Valid := by
    refine ⟨i2, i3, ?_, ?_⟩
    · intro a d hd s hs
      rcases i6 _ hd with h1 | h1
      · obtain ⟨b, hb⟩ := v1.closed a d h1 s hs
        exact ⟨b, i4 _ hb⟩
      · exact i5 s (subs_trans h1 hs)
    · intro a ha
      rw [i1]
      exact v1.unused a (fun d hd => ha d (i4 _ hd))
  obtain ⟨a, ha⟩ := i5 r.n (self_mem_subs _)
  refine ⟨⟨r.neg, a⟩, H2, ?_, v2, k1.trans (keeps_of (fun a d h1 _ => i4 _ h1) (fun a => by rw [i1])), by rw [i1]; exact r1,
    ⟨by rw [hr], by rw [← hr]; exact ha⟩⟩
  have e1 : (⟨f.neg, bf.edge.n⟩ : Edge) = bf.edge := by rw [hf.1.1]
  have e2 : (⟨g.neg, bg.edge.n⟩ : Edge) = bg.edge := by rw [hg.1.1]
  have e3 : (⟨h.neg, bh.edge.n⟩ : Edge) = bh.edge := by rw [hh.1.1]
  simp only [NodeTable.ite, ← hH1, n1, n2, n3, bind, Except.bind, e1, e2, e3]
  have e4 : Edge.apply m Bool.or (Edge.apply m Bool.and bf.edge bg.edge) (Edge.apply m Bool.and bf.edge.not bh.edge) = r :=
    hr.symm
  rw [e4, ← hH2, v2.addrOf ha]

end NodeTable

open NodeTable

/-- What a run of the code below may do to the table: nothing in use changes, and the addresses listed gain one reference
for each time they are listed. -/
structure Effect (H H' : NodeTable) (L : List Nat) : Prop where
  valid : H'.Valid
  keeps : Keeps H H'
  refs : ∀ a, H'.refs a = H.refs a + L.count a

theorem Effect.refl {H : NodeTable} (hv : H.Valid) : Effect H H [] := ⟨hv, Keeps.refl H, by simp⟩

theorem Effect.trans {H H' H'' : NodeTable} {L L' : List Nat} (h : Effect H H' L) (h' : Effect H' H'' L') :
    Effect H H'' (L' ++ L) :=
  ⟨h'.valid, h.keeps.trans h'.keeps, fun a => by rw [h'.refs, h.refs, List.count_append]; omega⟩

theorem Effect.held {H H' : NodeTable} {L : List Nat} (h : Effect H H' L) {d : DD} (hd : H.Held d) : H'.Held d := by
  obtain ⟨a, h1, h2⟩ := hd
  refine ⟨a, (h.keeps a d h1 (Held.inUse ⟨a, h1, h2⟩)).1, ?_⟩
  rw [h.refs]
  omega

theorem rebuildP_ok {E : Env} (hE : E.Fresh) {H : NodeTable} (hv : H.Valid) (mp : PMap Ptr) (node : Ptr) {v : Nat} {tb eb : Ptr}
    {bt be : BDD m} (ht : HS H tb bt.edge) (he : HS H eb be.edge) (hvar : H.Held (BDD.var v : BDD m).edge.n) :
    ∃ q H', rebuildP m E H mp node v tb eb = .ok (q, (node, q) :: mp, H') ∧ Effect H H' [q.addr] ∧
      HS H' q (BDD.ite (.var v) bt be).edge := by
  obtain ⟨H1, e1, v1, t1, -, r1⟩ := ref_ok hv ht.1.2
  have k1 : Keeps H H1 := keeps_of (fun a d h _ => by rw [t1]; exact h) (fun a => by rw [r1]; omega)
  obtain ⟨H2, e2, v2, t2, -, r2⟩ := ref_ok v1 (he.keep k1).1.2
  have k2 : Keeps H H2 := keeps_of (fun a d h _ => by rw [t2, t1]; exact h) (fun a => by rw [r2, r1]; omega)
  obtain ⟨va, hva, hvr⟩ := hvar
  have hva2 : (va, (BDD.var v : BDD m).edge.n) ∈ H2.table := by rw [t2, t1]; exact hva
  have e3 : H2.readVar v = .ok ⟨false, va⟩ := by
    have := v2.addrOf hva2
    simp only [BDD.var, Edge.mk', Edge.one, Edge.zero, Edge.mk.injEq, Bool.false_eq_true, if_false, false_and] at this
    simp only [readVar, this, bind, Except.bind]
  obtain ⟨H3, e4, v3, t3, -, r3⟩ := ref_ok v2 (p := ⟨false, va⟩) hva2
  simp only at r3
  have k3 : Keeps H H3 := keeps_of (fun a d h _ => by rw [t3, t2, t1]; exact h) (fun a => by rw [r3, r2, r1]; omega)
  have hvs : HS H ⟨false, va⟩ (BDD.var v : BDD m).edge :=
    ⟨⟨by simp [BDD.var, Edge.mk', Edge.one, Edge.zero], hva⟩, Held.inUse ⟨va, hva, hvr⟩⟩
  obtain ⟨q, H4, e5, v4, k4, r4, hq⟩ := ite_ok hE v3 (hvs.keep k3) (ht.keep k3) (he.keep k3)
  obtain ⟨H5, e6, v5, t5, -, r5⟩ := ref_ok v4 hq.2
  have hta := (ht.keep (k3.trans k4)).1.2
  have hea := (he.keep (k3.trans k4)).1.2
  have hxa := (hvs.keep (k3.trans k4)).1.2
  simp only at hxa
  obtain ⟨H6, e7, v6, t6, -, r6⟩ := deref_ok v5 (p := ⟨false, va⟩) (d := (BDD.var v : BDD m).edge.n)
    (by rw [t5]; exact hxa) (by
      simp only
      rw [r5, r4, r3, if_pos rfl]
      omega)
  simp only at r6
  obtain ⟨H7, e8, v7, t7, -, r7⟩ := deref_ok v6 (p := tb) (d := bt.edge.n) (by rw [t6, t5]; exact hta) (by
    rw [r6, r5, r4, r3, r2, r1, if_pos rfl]
    omega)
  obtain ⟨H8, e9, v8, t8, -, r8⟩ := deref_ok v7 (p := eb) (d := be.edge.n) (by rw [t7, t6, t5]; exact hea) (by
    rw [r7, r6, r5, r4, r3, r2, r1, if_pos (rfl : eb.addr = eb.addr)]
    omega)
  have rr : ∀ a, H8.refs a = H.refs a + [q.addr].count a := fun a => by
    rw [r8, r7, r6, r5, r4, r3, r2, r1, List.count_singleton]
    by_cases h : a = q.addr
    · subst h; simp; omega
    · have : (q.addr == a) = false := by simpa using fun h' => h h'.symm
      simp only [h, this, if_false, Bool.false_eq_true]
      omega
  have hmem : ∀ a d, (a, d) ∈ H.table → H.InUse d → (a, d) ∈ H8.table := fun a d h1 h2 => by
    rw [t8, t7, t6, t5]
    exact ((k3.trans k4) a d h1 h2).1
  have eff : Effect H H8 [q.addr] := ⟨v8, keeps_of hmem (fun a => by rw [rr]; omega), rr⟩
  refine ⟨q, H8, ?_, eff, ⟨⟨hq.1, by rw [t8, t7, t6, t5]; exact hq.2⟩, Held.inUse ⟨q.addr, by rw [t8, t7, t6, t5]; exact hq.2, ?_⟩⟩⟩
  · simp only [rebuildP, e1, e2, e3, e4, e5, e6, e7, e8, e9, bind, Except.bind]
  · rw [rr]
    simp

/-! ### Maps with pointers as keys -/

/-- The two maps agree. -/
def MapOk {α β : Type} (H : NodeTable) (R : NodeTable → α → β → Prop) (mp : PMap α) (mn : List (Edge × β)) : Prop :=
  List.Forall₂ (fun x y => HS H x.1 y.1 ∧ R H x.2 y.2) mp mn

/-- Results. -/
def ResOk (H : NodeTable) (p : Ptr) (b : BDD m) : Prop := HS H p b.edge

/-- Counts. -/
def CntOk (_ : NodeTable) (p q : ℚ) : Prop := p = q

theorem MapOk.keep {α β : Type} {H H' : NodeTable} {R : NodeTable → α → β → Prop} {mp : PMap α} {mn : List (Edge × β)}
    (h : MapOk H R mp mn) (hk : Keeps H H') (hR : ∀ x y, R H x y → R H' x y) : MapOk H' R mp mn :=
  List.Forall₂.imp (fun _ _ h => ⟨h.1.keep hk, hR _ _ h.2⟩) h

theorem MapOk.find {α β : Type} {H : NodeTable} (hv : H.Valid) {R : NodeTable → α → β → Prop} {p : Ptr} {e : Edge} (hp : HS H p e)
    {mp : PMap α} {mn : NMap β} (h : MapOk H R mp mn) :
    (PMap.find mp p = none ∧ NMap.find mn e = none) ∨
      ∃ x y, PMap.find mp p = some x ∧ NMap.find mn e = some y ∧ R H x y := by
  induction mp generalizing mn with
  | nil =>
    cases h
    exact .inl ⟨rfl, rfl⟩
  | cons x xs ih =>
    obtain ⟨k, w⟩ := x
    cases h with
    | @cons _ y _ ys h1 h2 =>
      obtain ⟨k', w'⟩ := y
      have hi := HS.inj hv h1.1 hp
      simp only at hi
      simp only [PMap.find, NMap.find]
      by_cases hk : k = p
      · rw [if_pos hk, if_pos (hi.mp hk)]
        exact .inr ⟨w, w', rfl, rfl, h1.2⟩
      · rw [if_neg hk, if_neg (fun h => hk (hi.mpr h))]
        exact ih h2

theorem ptrKeys_ok {H : NodeTable} (hv : H.Valid) : ∀ (cnt : NMap ℚ), (∀ x ∈ cnt, H.InUse x.1.n) →
    ∃ pc, ptrKeys H cnt = .ok pc ∧ MapOk H CntOk pc cnt
  | [], _ => ⟨[], rfl, .nil⟩
  | (k, q) :: rest, h => by
    have hk := h _ (List.mem_cons_self ..)
    obtain ⟨r, ⟨b, hb, hr⟩, hs⟩ := hk
    obtain ⟨a, ha⟩ := hv.closed _ _ hb _ hs
    obtain ⟨pc, h1, h2⟩ := ptrKeys_ok hv rest (fun x hx => h x (List.mem_cons_of_mem _ hx))
    refine ⟨(⟨k.neg, a⟩, q) :: pc, by simp only [ptrKeys, hv.addrOf ha, h1, bind, Except.bind], .cons ⟨⟨⟨rfl, ha⟩, ?_⟩, rfl⟩ h2⟩
    exact ⟨r, ⟨b, hb, hr⟩, hs⟩

theorem NMap.mem_of_find {α : Type} {mn : NMap α} {e : Edge} {x : α} (h : NMap.find mn e = some x) :
    e ∈ mn.map Prod.fst := by
  induction mn with
  | nil => simp [NMap.find] at h
  | cons y ys ih =>
    obtain ⟨k, w⟩ := y
    simp only [NMap.find] at h
    by_cases hk : k = e
    · simp [hk]
    · rw [if_neg hk] at h
      exact List.mem_cons_of_mem _ (ih h)

theorem NMap.not_mem_of_find {α : Type} {mn : NMap α} {e : Edge} (h : NMap.find mn e = none) :
    e ∉ mn.map Prod.fst := by
  induction mn with
  | nil => simp
  | cons y ys ih =>
    obtain ⟨k, w⟩ := y
    simp only [NMap.find] at h
    by_cases hk : k = e
    · rw [if_pos hk] at h
      simp at h
    · rw [if_neg hk] at h
      simp only [List.map_cons, List.mem_cons, not_or]
      exact ⟨fun h' => hk h'.symm, ih h⟩

/-! ### One recursion for the three -/

/-- What to do at a node: leave it, go into both children, replace the then-child (or the else-child, or both) by a
constant and go into the other one, replace it as a whole, or give up. -/
inductive Plan where
  | keep
  | both
  | thenC (b : Bool)
  | elseC (b : Bool)
  | bothC (a b : Bool)
  | replace (b : Bool)
  | fail (f : Fault)

/-- Is a new node built? -/
def Plan.builds : Plan → Bool
  | .both | .thenC _ | .elseC _ | .bothC .. => true
  | _ => false

def constB (b : Bool) : BDD m := if b then .one else .zero

def genRec (plan : Edge → Plan) :
    (d : DD) → d.WF m → Bool → NMap (BDD m) → Except Fault (BDD m × NMap (BDD m))
  | .one, h, neg, mp => .ok (BDD.ofNode neg .one h, mp)
  | .node v t c e, h, neg, mp =>
    match NMap.find mp ⟨neg, .node v t c e⟩ with
    | some r => .ok (r, mp)
    | none =>
      match plan ⟨neg, .node v t c e⟩ with
      | .keep => .ok (BDD.ofNode neg (.node v t c e) h, mp)
      | .both => do
        let tb ← genRec plan t h.1 neg mp
        let eb ← genRec plan e h.2.1 (neg ^^ c) tb.2
        .ok (BDD.ite (.var v) tb.1 eb.1, NMap.insert eb.2 ⟨neg, .node v t c e⟩ (BDD.ite (.var v) tb.1 eb.1))
      | .thenC b => do
        let eb ← genRec plan e h.2.1 (neg ^^ c) mp
        .ok (BDD.ite (.var v) (constB b) eb.1,
          NMap.insert eb.2 ⟨neg, .node v t c e⟩ (BDD.ite (.var v) (constB b) eb.1))
      | .elseC b => do
        let tb ← genRec plan t h.1 neg mp
        .ok (BDD.ite (.var v) tb.1 (constB b),
          NMap.insert tb.2 ⟨neg, .node v t c e⟩ (BDD.ite (.var v) tb.1 (constB b)))
      | .bothC a b =>
        .ok (BDD.ite (.var v) (constB a) (constB b),
          NMap.insert mp ⟨neg, .node v t c e⟩ (BDD.ite (.var v) (constB a) (constB b)))
      | .replace b => .ok (constB b, NMap.insert mp ⟨neg, .node v t c e⟩ (constB b))
      | .fail f => .error f

def genP (m : Mgr) (E : Env) (plan : Nat → Ptr → Ptr → Ptr → Plan) :
    Nat → Ptr → PMap Ptr → NodeTable → Except Fault (Ptr × PMap Ptr × NodeTable)
  | 0, _, _, _ => .error .fuel
  | fuel + 1, node, mp, H => do
    let d ← H.nodeAt node.addr
    match d with
    | .one => .ok (node, mp, H)
    | .node v t c e =>
      match PMap.find mp node with
      | some r => .ok (r, mp, H)
      | none => do
        let ta ← H.addrOf t
        let ea ← H.addrOf e
        match plan v node ⟨node.neg, ta⟩ ⟨node.neg ^^ c, ea⟩ with
        | .keep => .ok (node, mp, H)
        | .both => do
          let tb ← genP m E plan fuel ⟨node.neg, ta⟩ mp H
          let eb ← genP m E plan fuel ⟨node.neg ^^ c, ea⟩ tb.2.1 tb.2.2
          rebuildP m E eb.2.2 eb.2.1 node v tb.1 eb.1
        | .thenC b => do
          let k ← H.constant b
          let eb ← genP m E plan fuel ⟨node.neg ^^ c, ea⟩ mp H
          rebuildP m E eb.2.2 eb.2.1 node v k eb.1
        | .elseC b => do
          let tb ← genP m E plan fuel ⟨node.neg, ta⟩ mp H
          let k ← tb.2.2.constant b
          rebuildP m E tb.2.2 tb.2.1 node v tb.1 k
        | .bothC a b => do
          let k ← H.constant a
          let l ← H.constant b
          rebuildP m E H mp node v k l
        | .replace b => do
          let k ← H.constant b
          .ok (k, (node, k) :: mp, H)
        | .fail f => .error f

/-- The plans for pointers and for handles agree as long as the counts do. -/
def PlanOk (cntP : PMap ℚ) (cnt : NMap ℚ) (planP : Nat → Ptr → Ptr → Ptr → Plan) (plan : Edge → Plan) : Prop :=
  ∀ H : NodeTable, H.Valid → MapOk H CntOk cntP cnt → ∀ v t c e node nv nnv neg, HS H node ⟨neg, .node v t c e⟩ →
    HS H nv ⟨neg, t⟩ → HS H nnv ⟨neg ^^ c, e⟩ → planP v node nv nnv = plan ⟨neg, .node v t c e⟩

theorem constant_ok {H : NodeTable} (hv : H.Valid) (h1 : H.Held .one) (b : Bool) :
    ∃ p, H.constant b = .ok p ∧ HS H p (constB b : BDD m).edge := by
  obtain ⟨a, ha, hr⟩ := h1
  refine ⟨⟨!b, a⟩, by simp only [constant, hv.addrOf ha, bind, Except.bind], ?_⟩
  cases b <;> exact ⟨⟨rfl, ha⟩, Held.inUse ⟨a, ha, hr⟩⟩

theorem child_ok {H : NodeTable} (hv : H.Valid) {d s : DD} (h : H.InUse d) (hs : s ∈ d.subs) : ∃ a, (a, s) ∈ H.table := by
  obtain ⟨r, ⟨b, hb, hr⟩, h3⟩ := h
  exact hv.closed _ _ hb _ (subs_trans h3 hs)

theorem genP_ok {E : Env} (hE : E.Fresh) {cntP : PMap ℚ} {cnt : NMap ℚ} {planP : Nat → Ptr → Ptr → Ptr → Plan}
    {plan : Edge → Plan} (hplan : PlanOk cntP cnt planP plan) (d : DD) (h : d.WF m) :
    ∀ (fuel : Nat) (neg : Bool) (p : Ptr) (mp : PMap Ptr) (mn : NMap (BDD m)) (H : NodeTable), d.size < fuel → H.Valid →
      HS H p ⟨neg, d⟩ → H.Held .one → (∀ v ∈ d.vars, H.Held (BDD.var v : BDD m).edge.n) → MapOk H CntOk cntP cnt →
      MapOk H ResOk mp mn → ∀ r mn', genRec plan d h neg mn = .ok (r, mn') →
      ∃ (q : Ptr) (mp' : PMap Ptr) (H' : NodeTable) (L : List (Edge × Nat)) (new : NMap (BDD m)), genP m E planP fuel p mp H = .ok (q, mp', H') ∧ Effect H H' (L.map Prod.snd) ∧
        HS H' q r.edge ∧ MapOk H' ResOk mp' mn' ∧ mn' = new ++ mn ∧
        L.map Prod.fst = (new.map Prod.fst).filter (fun k => (plan k).builds) := by
  induction d with
  | one =>
    intro fuel neg p mp mn H hf hv hp h1 hvars hc hm r mn' hrun
    obtain ⟨k, rfl⟩ : ∃ k, fuel = k + 1 := ⟨fuel - 1, by omega⟩
    simp only [genRec, Except.ok.injEq, Prod.mk.injEq] at hrun
    obtain ⟨rfl, rfl⟩ := hrun
    refine ⟨p, mp, H, [], [], ?_, Effect.refl hv, hp, hm, rfl, rfl⟩
    simp only [genP, hv.nodeAt hp.1.2, bind, Except.bind]
  | node v t c e iht ihe =>
    intro fuel neg p mp mn H hf hv hp h1 hvars hc hm r mn' hrun
    obtain ⟨k, rfl⟩ : ∃ k, fuel = k + 1 := ⟨fuel - 1, by omega⟩
    have hst : t ∈ (DD.node v t c e).subs := by simp [DD.subs, self_mem_subs]
    have hse : e ∈ (DD.node v t c e).subs := by simp [DD.subs, self_mem_subs]
    obtain ⟨ta, hta⟩ := child_ok hv hp.2 hst
    obtain ⟨ea, hea⟩ := child_ok hv hp.2 hse
    have hpn : p.neg = neg := hp.1.1
    have hpt : HS H ⟨p.neg, ta⟩ ⟨neg, t⟩ := ⟨⟨hpn, hta⟩, hp.2.sub hst⟩
    have hpe : HS H ⟨p.neg ^^ c, ea⟩ ⟨neg ^^ c, e⟩ := ⟨⟨by simp only [hpn], hea⟩, hp.2.sub hse⟩
    have hvt : ∀ w ∈ t.vars, H.Held (BDD.var w : BDD m).edge.n := fun w hw => hvars w (by simp [DD.vars, hw])
    have hve : ∀ w ∈ e.vars, H.Held (BDD.var w : BDD m).edge.n := fun w hw => hvars w (by simp [DD.vars, hw])
    have hvv : H.Held (BDD.var v : BDD m).edge.n := hvars v (by simp [DD.vars])
    have hsz : t.size < k ∧ e.size < k := by
      simp only [DD.size] at hf
      omega
    have hpl := hplan H hv hc v t c e p ⟨p.neg, ta⟩ ⟨p.neg ^^ c, ea⟩ neg hp hpt hpe
    rw [genRec] at hrun
    simp only [genP, hv.nodeAt hp.1.2, bind, Except.bind, hv.addrOf hta, hv.addrOf hea, hpl]
    rcases hm.find hv hp with ⟨f1, f2⟩ | ⟨x, y, f1, f2, f3⟩
    · rw [f2] at hrun
      simp only [f1]
      simp only at hrun
      cases hpp : plan ⟨neg, .node v t c e⟩ with
      | keep =>
        rw [hpp] at hrun
        simp only [Except.ok.injEq, Prod.mk.injEq] at hrun
        obtain ⟨rfl, rfl⟩ := hrun
        exact ⟨p, mp, H, [], [], rfl, Effect.refl hv, hp, hm, rfl, rfl⟩
      | both =>
        rw [hpp] at hrun
        simp only [bind, Except.bind] at hrun
        cases ht : genRec plan t h.1 neg mn with
        | error x => rw [ht] at hrun; simp at hrun
        | ok x =>
          obtain ⟨rt, mt⟩ := x
          rw [ht] at hrun
          simp only at hrun
          cases he : genRec plan e h.2.1 (neg ^^ c) mt with
          | error x => rw [he] at hrun; simp at hrun
          | ok x =>
            obtain ⟨re, me⟩ := x
            rw [he] at hrun
            simp only [Except.ok.injEq, Prod.mk.injEq] at hrun
            obtain ⟨rfl, rfl⟩ := hrun
            obtain ⟨qt, mpt, Ht, Lt, nt, a1, a2, a3, a4, a5, a6⟩ :=
              iht h.1 k neg _ mp mn H hsz.1 hv hpt h1 hvt hc hm rt mt ht
            obtain ⟨qe, mpe, He, Le, ne, b1, b2, b3, b4, b5, b6⟩ :=
              ihe h.2.1 k (neg ^^ c) _ mpt mt Ht hsz.2 a2.valid (hpe.keep a2.keeps) (a2.held h1)
                (fun w hw => a2.held (hve w hw)) (hc.keep a2.keeps (fun _ _ h => h)) a4 re me he
            obtain ⟨q, H', c1, c2, c3⟩ := rebuildP_ok hE b2.valid mpe p (a3.keep b2.keeps) b3
              (b2.held (a2.held hvv))
            have eff := (a2.trans b2).trans c2
            refine ⟨q, (p, q) :: mpe, H', (⟨neg, .node v t c e⟩, q.addr) :: (Le ++ Lt),
              (⟨neg, .node v t c e⟩, BDD.ite (.var v) rt re) :: (ne ++ nt), ?_, ?_, c3, ?_, ?_, ?_⟩
            · simp only [a1, b1, c1]
            · simpa using eff
            · exact .cons ⟨hp.keep eff.keeps, c3⟩ (b4.keep c2.keeps (fun _ _ h => h.keep c2.keeps))
            · rw [NMap.insert, b5, a5]; simp
            · simp [hpp, Plan.builds, a6, b6]
      | thenC b =>
        rw [hpp] at hrun
        simp only [bind, Except.bind] at hrun
        cases he : genRec plan e h.2.1 (neg ^^ c) mn with
        | error x => rw [he] at hrun; simp at hrun
        | ok x =>
          obtain ⟨re, me⟩ := x
          rw [he] at hrun
          simp only [Except.ok.injEq, Prod.mk.injEq] at hrun
          obtain ⟨rfl, rfl⟩ := hrun
          obtain ⟨kp, k1, k2⟩ := constant_ok (m := m) hv h1 b
          obtain ⟨qe, mpe, He, Le, ne, b1, b2, b3, b4, b5, b6⟩ :=
            ihe h.2.1 k (neg ^^ c) _ mp mn H hsz.2 hv hpe h1 hve hc hm re me he
          obtain ⟨q, H', c1, c2, c3⟩ := rebuildP_ok hE b2.valid mpe p (k2.keep b2.keeps) b3 (b2.held hvv)
          have eff := b2.trans c2
          refine ⟨q, (p, q) :: mpe, H', (⟨neg, .node v t c e⟩, q.addr) :: Le,
            (⟨neg, .node v t c e⟩, BDD.ite (.var v) (constB b) re) :: ne, ?_, ?_, c3, ?_, ?_, ?_⟩
          · simp only [k1, b1, c1]
          · simpa using eff
          · exact .cons ⟨hp.keep eff.keeps, c3⟩ (b4.keep c2.keeps (fun _ _ h => h.keep c2.keeps))
          · rw [NMap.insert, b5]; simp
          · simp [hpp, Plan.builds, b6]
      | elseC b =>
        rw [hpp] at hrun
        simp only [bind, Except.bind] at hrun
        cases ht : genRec plan t h.1 neg mn with
        | error x => rw [ht] at hrun; simp at hrun
        | ok x =>
          obtain ⟨rt, mt⟩ := x
          rw [ht] at hrun
          simp only [Except.ok.injEq, Prod.mk.injEq] at hrun
          obtain ⟨rfl, rfl⟩ := hrun
          obtain ⟨qt, mpt, Ht, Lt, nt, a1, a2, a3, a4, a5, a6⟩ :=
            iht h.1 k neg _ mp mn H hsz.1 hv hpt h1 hvt hc hm rt mt ht
          obtain ⟨kp, k1, k2⟩ := constant_ok (m := m) a2.valid (a2.held h1) b
          obtain ⟨q, H', c1, c2, c3⟩ := rebuildP_ok hE a2.valid mpt p a3 k2 (a2.held hvv)
          have eff := a2.trans c2
          refine ⟨q, (p, q) :: mpt, H', (⟨neg, .node v t c e⟩, q.addr) :: Lt,
            (⟨neg, .node v t c e⟩, BDD.ite (.var v) rt (constB b)) :: nt, ?_, ?_, c3, ?_, ?_, ?_⟩
          · simp only [k1, a1, c1]
          · simpa using eff
          · exact .cons ⟨hp.keep eff.keeps, c3⟩ (a4.keep c2.keeps (fun _ _ h => h.keep c2.keeps))
          · rw [NMap.insert, a5]; simp
          · simp [hpp, Plan.builds, a6]
      | bothC a b =>
        rw [hpp] at hrun
        simp only [Except.ok.injEq, Prod.mk.injEq] at hrun
        obtain ⟨rfl, rfl⟩ := hrun
        obtain ⟨kp, k1, k2⟩ := constant_ok (m := m) hv h1 a
        obtain ⟨lp, l1, l2⟩ := constant_ok (m := m) hv h1 b
        obtain ⟨q, H', c1, c2, c3⟩ := rebuildP_ok hE hv mp p k2 l2 hvv
        refine ⟨q, (p, q) :: mp, H', [(⟨neg, .node v t c e⟩, q.addr)],
          [(⟨neg, .node v t c e⟩, BDD.ite (.var v) (constB a) (constB b))], ?_, c2, c3, ?_, rfl, ?_⟩
        · simp only [k1, l1, c1]
        · exact .cons ⟨hp.keep c2.keeps, c3⟩ (hm.keep c2.keeps (fun _ _ h => h.keep c2.keeps))
        · simp [hpp, Plan.builds]
      | replace b =>
        rw [hpp] at hrun
        simp only [Except.ok.injEq, Prod.mk.injEq] at hrun
        obtain ⟨rfl, rfl⟩ := hrun
        obtain ⟨kp, k1, k2⟩ := constant_ok (m := m) hv h1 b
        refine ⟨kp, (p, kp) :: mp, H, [], [(⟨neg, .node v t c e⟩, constB b)], ?_, Effect.refl hv, k2, .cons ⟨hp, k2⟩ hm, rfl, ?_⟩
        · simp only [k1]
        · simp [hpp, Plan.builds]
      | fail x =>
        rw [hpp] at hrun
        simp at hrun
    · rw [f2] at hrun
      simp only [Except.ok.injEq, Prod.mk.injEq] at hrun
      obtain ⟨rfl, rfl⟩ := hrun
      exact ⟨x, mp, H, [], [], by simp only [f1], Effect.refl hv, f3, hm, rfl, rfl⟩

/-! ### The keys of the map -/

/-- The handles entered into the map. -/
def visits (plan : Edge → Plan) : DD → Bool → List Edge
  | .one, _ => []
  | .node v t c e, neg =>
    match plan ⟨neg, .node v t c e⟩ with
    | .both => ⟨neg, .node v t c e⟩ :: (visits plan t neg ++ visits plan e (neg ^^ c))
    | .thenC _ => ⟨neg, .node v t c e⟩ :: visits plan e (neg ^^ c)
    | .elseC _ => ⟨neg, .node v t c e⟩ :: visits plan t neg
    | .bothC .. | .replace _ => [⟨neg, .node v t c e⟩]
    | .keep | .fail _ => []

theorem visits_reach {plan : Edge → Plan} {d : DD} {neg : Bool} {a : Edge} (h : a ∈ visits plan d neg) :
    a ∈ d.reach neg := by
  induction d generalizing neg with
  | one => simp [visits] at h
  | node v t c e iht ihe =>
    simp only [visits] at h
    split at h
    · rcases List.mem_cons.mp h with rfl | h
      · exact DD.self_mem_reach _ _
      · rcases List.mem_append.mp h with h | h
        · exact reach_then (iht h)
        · exact reach_else (ihe h)
    · rcases List.mem_cons.mp h with rfl | h
      · exact DD.self_mem_reach _ _
      · exact reach_else (ihe h)
    · rcases List.mem_cons.mp h with rfl | h
      · exact DD.self_mem_reach _ _
      · exact reach_then (iht h)
    · rw [List.mem_singleton.mp h]
      exact DD.self_mem_reach _ _
    · rw [List.mem_singleton.mp h]
      exact DD.self_mem_reach _ _
    · simp at h
    · simp at h

theorem reach_size_le {d : DD} {neg : Bool} {a : Edge} (h : a ∈ d.reach neg) : a.n.size ≤ d.size := by
  induction d generalizing neg with
  | one =>
    simp only [DD.reach, List.mem_singleton] at h
    rw [h]
  | node v t c e iht ihe =>
    simp only [DD.reach, List.mem_cons, List.mem_append] at h
    rcases h with rfl | h | h
    · exact le_rfl
    · have := iht h
      simp only [DD.size]; omega
    · have := ihe h
      simp only [DD.size]; omega

/-- No key twice, and with a key all that is entered below it. -/
structure KeysOk (plan : Edge → Plan) (ks : List Edge) : Prop where
  nodup : ks.Nodup
  closed : ∀ k ∈ ks, ∀ j ∈ visits plan k.n k.neg, j ∈ ks

theorem genRec_keys {plan : Edge → Plan} (d : DD) (h : d.WF m) : ∀ (neg : Bool) (mn : NMap (BDD m)) r mn',
    KeysOk plan (mn.map Prod.fst) → genRec plan d h neg mn = .ok (r, mn') →
    KeysOk plan (mn'.map Prod.fst) ∧ ∀ j, j ∈ mn'.map Prod.fst ↔ j ∈ mn.map Prod.fst ∨ j ∈ visits plan d neg := by
  induction d with
  | one =>
    intro neg mn r mn' hk hrun
    simp only [genRec, Except.ok.injEq, Prod.mk.injEq] at hrun
    obtain ⟨rfl, rfl⟩ := hrun
    exact ⟨hk, by simp [visits]⟩
  | node v t c e iht ihe =>
    intro neg mn r mn' hk hrun
    have hself : ∀ (V : List Edge), (∀ j ∈ V, j ∈ t.reach neg ∨ j ∈ e.reach (neg ^^ c)) →
        (⟨neg, .node v t c e⟩ : Edge) ∉ V := by
      intro V hV hm
      rcases hV _ hm with h1 | h1 <;>
      · have := reach_size_le h1
        simp only [DD.size] at this
        omega
    -- entering the node itself
    have hins : ∀ (mn2 : NMap (BDD m)) (b : BDD m) (V : List Edge), KeysOk plan (mn2.map Prod.fst) →
        (∀ j, j ∈ mn2.map Prod.fst ↔ j ∈ mn.map Prod.fst ∨ j ∈ V) →
        (∀ j ∈ V, j ∈ t.reach neg ∨ j ∈ e.reach (neg ^^ c)) →
        visits plan (.node v t c e) neg = ⟨neg, .node v t c e⟩ :: V →
        (⟨neg, .node v t c e⟩ : Edge) ∉ mn.map Prod.fst →
        KeysOk plan ((NMap.insert mn2 ⟨neg, .node v t c e⟩ b).map Prod.fst) ∧
        ∀ j, j ∈ (NMap.insert mn2 ⟨neg, .node v t c e⟩ b).map Prod.fst ↔
          j ∈ mn.map Prod.fst ∨ j ∈ visits plan (.node v t c e) neg := by
      intro mn2 b V k2 hm2 hV hvis hnot
      have hn2 : (⟨neg, .node v t c e⟩ : Edge) ∉ mn2.map Prod.fst := by
        rw [hm2]
        rintro (h1 | h1)
        · exact hnot h1
        · exact hself V hV h1
      have hmem : ∀ j, j ∈ (NMap.insert mn2 ⟨neg, .node v t c e⟩ b).map Prod.fst ↔
          j ∈ mn.map Prod.fst ∨ j ∈ visits plan (.node v t c e) neg := by
        intro j
        rw [hvis, NMap.insert, List.map_cons, List.mem_cons, List.mem_cons, hm2]
        tauto
      refine ⟨⟨?_, ?_⟩, hmem⟩
      · rw [NMap.insert, List.map_cons, List.nodup_cons]
        exact ⟨hn2, k2.nodup⟩
      · intro j hj i hi
        rw [NMap.insert, List.map_cons, List.mem_cons] at hj
        rcases hj with rfl | hj
        · exact (hmem i).mpr (.inr hi)
        · rw [NMap.insert, List.map_cons]
          exact List.mem_cons_of_mem _ (k2.closed j hj i hi)
    rw [genRec] at hrun
    cases hf : NMap.find mn ⟨neg, .node v t c e⟩ with
    | some x =>
      rw [hf] at hrun
      simp only [Except.ok.injEq, Prod.mk.injEq] at hrun
      obtain ⟨rfl, rfl⟩ := hrun
      refine ⟨hk, fun j => ⟨.inl, ?_⟩⟩
      rintro (h1 | h1)
      · exact h1
      · exact hk.closed ⟨neg, .node v t c e⟩ (NMap.mem_of_find hf) j h1
    | none =>
      have hnot := NMap.not_mem_of_find hf
      rw [hf] at hrun
      simp only at hrun
      cases hpp : plan ⟨neg, .node v t c e⟩ with
      | keep =>
        rw [hpp] at hrun
        simp only [Except.ok.injEq, Prod.mk.injEq] at hrun
        obtain ⟨rfl, rfl⟩ := hrun
        exact ⟨hk, by simp [visits, hpp]⟩
      | both =>
        rw [hpp] at hrun
        simp only [bind, Except.bind] at hrun
        cases ht : genRec plan t h.1 neg mn with
        | error x => rw [ht] at hrun; simp at hrun
        | ok x =>
          obtain ⟨rt, mt⟩ := x
          rw [ht] at hrun
          simp only at hrun
          cases he : genRec plan e h.2.1 (neg ^^ c) mt with
          | error x => rw [he] at hrun; simp at hrun
          | ok x =>
            obtain ⟨re, me⟩ := x
            rw [he] at hrun
            simp only [Except.ok.injEq, Prod.mk.injEq] at hrun
            obtain ⟨rfl, rfl⟩ := hrun
            obtain ⟨i1, i2⟩ := iht h.1 neg mn rt mt hk ht
            obtain ⟨i3, i4⟩ := ihe h.2.1 (neg ^^ c) mt re me i1 he
            refine hins me _ (visits plan t neg ++ visits plan e (neg ^^ c)) i3 (fun j => ?_) (fun j hj => ?_)
              (by simp [visits, hpp]) hnot
            · rw [i4, i2, List.mem_append, or_assoc]
            · exact (List.mem_append.mp hj).imp visits_reach visits_reach
      | thenC b =>
        rw [hpp] at hrun
        simp only [bind, Except.bind] at hrun
        cases he : genRec plan e h.2.1 (neg ^^ c) mn with
        | error x => rw [he] at hrun; simp at hrun
        | ok x =>
          obtain ⟨re, me⟩ := x
          rw [he] at hrun
          simp only [Except.ok.injEq, Prod.mk.injEq] at hrun
          obtain ⟨rfl, rfl⟩ := hrun
          obtain ⟨i3, i4⟩ := ihe h.2.1 (neg ^^ c) mn re me hk he
          exact hins me _ (visits plan e (neg ^^ c)) i3 i4 (fun j hj => .inr (visits_reach hj)) (by simp [visits, hpp]) hnot
      | elseC b =>
        rw [hpp] at hrun
        simp only [bind, Except.bind] at hrun
        cases ht : genRec plan t h.1 neg mn with
        | error x => rw [ht] at hrun; simp at hrun
        | ok x =>
          obtain ⟨rt, mt⟩ := x
          rw [ht] at hrun
          simp only [Except.ok.injEq, Prod.mk.injEq] at hrun
          obtain ⟨rfl, rfl⟩ := hrun
          obtain ⟨i1, i2⟩ := iht h.1 neg mn rt mt hk ht
          exact hins mt _ (visits plan t neg) i1 i2 (fun j hj => .inl (visits_reach hj)) (by simp [visits, hpp]) hnot
      | bothC a b =>
        rw [hpp] at hrun
        simp only [Except.ok.injEq, Prod.mk.injEq] at hrun
        obtain ⟨rfl, rfl⟩ := hrun
        exact hins mn _ [] hk (by simp) (by simp) (by simp [visits, hpp]) hnot
      | replace b =>
        rw [hpp] at hrun
        simp only [Except.ok.injEq, Prod.mk.injEq] at hrun
        obtain ⟨rfl, rfl⟩ := hrun
        exact hins mn _ [] hk (by simp) (by simp) (by simp [visits, hpp]) hnot
      | fail x =>
        rw [hpp] at hrun
        simp at hrun

end Verif

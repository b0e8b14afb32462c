import Verif.Proofs.RefCount
import Verif.Proofs.OperatorSem
import Verif.Proofs.OperatorBest

/-! # The three recursions as instances -/

namespace Verif

variable {m : Mgr}
open NodeTable

/-! ### `remove_children_rec` -/

def pRemove (ls le : Nat) (heavy subset : Bool) (v : Nat) : Option ℚ → Option ℚ → Plan
  | tc, ec =>
    if v < ls then .both
    else if v ≤ le then
      match tc, ec with
      | some tc, some ec => if heavy = decide (tc > ec) then .thenC (!subset) else .elseC (!subset)
      | _, _ => .fail .logicError
    else .keep

def planRemove (ls le : Nat) (cnt : NMap ℚ) (heavy subset : Bool) : Edge → Plan
  | ⟨_, .one⟩ => .keep
  | ⟨neg, .node v t c e⟩ => pRemove ls le heavy subset v (NMap.find cnt ⟨neg, t⟩) (NMap.find cnt ⟨neg ^^ c, e⟩)

theorem fill_eq (subset : Bool) : (fillTerminal subset : BDD m) = constB (!subset) := by
  cases subset <;> rfl

theorem removeChildrenRec_gen (ls le : Nat) (cnt : NMap ℚ) (heavy subset : Bool) (d : DD) (h : d.WF m) :
    ∀ (neg : Bool) (mp : NMap (BDD m)), removeChildrenRec ls le cnt heavy subset d h neg mp =
      genRec (planRemove ls le cnt heavy subset) d h neg mp := by
  induction d with
  | one => intro neg mp; rfl
  | node v t c e iht ihe =>
    intro neg mp
    rw [removeChildrenRec, genRec]
    cases NMap.find mp ⟨neg, .node v t c e⟩ with
    | some x => rfl
    | none =>
      simp only [planRemove, pRemove]
      by_cases h1 : v < ls
      · simp only [if_pos h1, iht, ihe]
      · simp only [if_neg h1]
        by_cases h2 : v ≤ le
        · simp only [if_pos h2]
          cases NMap.find cnt ⟨neg, t⟩ with
          | none => rfl
          | some tc =>
            cases NMap.find cnt ⟨neg ^^ c, e⟩ with
            | none => rfl
            | some ec =>
              simp only
              by_cases h3 : heavy = decide (tc > ec)
              · simp only [if_pos h3, ihe, fill_eq]
              · simp only [if_neg h3, iht, fill_eq]
        · simp only [if_neg h2]

def planRemoveP (ls le : Nat) (cnt : PMap ℚ) (heavy subset : Bool) (v : Nat) (_ nv nnv : Ptr) : Plan :=
  pRemove ls le heavy subset v (PMap.find cnt nv) (PMap.find cnt nnv)

theorem removeChildrenP_gen (E : Env) (ls le : Nat) (cnt : PMap ℚ) (heavy subset : Bool) :
    ∀ (fuel : Nat) (p : Ptr) (mp : PMap Ptr) (H : NodeTable), removeChildrenP m E ls le cnt heavy subset fuel p mp H =
      genP m E (planRemoveP ls le cnt heavy subset) fuel p mp H := by
  intro fuel
  induction fuel with
  | zero => intro p mp H; rfl
  | succ k ih =>
    intro p mp H
    rw [removeChildrenP, genP]
    cases H.nodeAt p.addr with
    | error x => rfl
    | ok d =>
      cases d with
      | one => rfl
      | node v t c e =>
        simp only [bind, Except.bind]
        cases PMap.find mp p with
        | some x => rfl
        | none =>
          simp only
          cases H.addrOf t with
          | error x => rfl
          | ok ta =>
            simp only
            cases H.addrOf e with
            | error x => rfl
            | ok ea =>
              simp only [planRemoveP, pRemove]
              by_cases h1 : v < ls
              · simp only [if_pos h1, ih]
              · simp only [if_neg h1]
                by_cases h2 : v ≤ le
                · simp only [if_pos h2]
                  cases PMap.find cnt ⟨p.neg, ta⟩ with
                  | none => rfl
                  | some tc =>
                    cases PMap.find cnt ⟨p.neg ^^ c, ea⟩ with
                    | none => rfl
                    | some ec =>
                      simp only
                      by_cases h3 : heavy = decide (tc > ec)
                      · simp only [if_pos h3, ih]
                      · simp only [if_neg h3, ih]
                · simp only [if_neg h2]

theorem find_cnt {H : NodeTable} (hv : H.Valid) {cntP : PMap ℚ} {cnt : NMap ℚ} (hc : MapOk H CntOk cntP cnt) {p : Ptr}
    {e : Edge} (hp : HS H p e) : PMap.find cntP p = NMap.find cnt e := by
  rcases hc.find hv hp with ⟨f1, f2⟩ | ⟨x, y, f1, f2, f3⟩
  · rw [f1, f2]
  · rw [f1, f2, show x = y from f3]

theorem planRemove_ok (ls le : Nat) (cntP : PMap ℚ) (cnt : NMap ℚ) (heavy subset : Bool) :
    PlanOk cntP cnt (planRemoveP ls le cntP heavy subset) (planRemove ls le cnt heavy subset) := by
  intro H hv hc v t c e node nv nnv neg h1 h2 h3
  simp only [planRemoveP, planRemove, find_cnt hv hc h2, find_cnt hv hc h3]

/-! ### `round_rec` -/

def pRound (ls v : Nat) (q : Option ℚ) : Plan :=
  if v < ls then .both
  else match q with
    | none => .fail .ub
    | some q => .replace (decide (q > 1 / 2))

def planRound (ls : Nat) (cnt : NMap ℚ) : Edge → Plan
  | ⟨_, .one⟩ => .keep
  | ⟨neg, .node v t c e⟩ => pRound ls v (NMap.find cnt ⟨neg, .node v t c e⟩)

def planRoundP (ls : Nat) (cnt : PMap ℚ) (v : Nat) (node _ _ : Ptr) : Plan := pRound ls v (PMap.find cnt node)

theorem constB_decide {p : Prop} [Decidable p] : (constB (decide p) : BDD m) = if p then .one else .zero := by
  by_cases h : p <;> simp [constB, h]

theorem roundRec_gen (ls : Nat) (cnt : NMap ℚ) (d : DD) (h : d.WF m) :
    ∀ (neg : Bool) (mp : NMap (BDD m)), roundRec ls cnt d h neg mp = genRec (planRound ls cnt) d h neg mp := by
  induction d with
  | one => intro neg mp; rfl
  | node v t c e iht ihe =>
    intro neg mp
    rw [roundRec, genRec]
    cases NMap.find mp ⟨neg, .node v t c e⟩ with
    | some x => rfl
    | none =>
      simp only [planRound, pRound]
      by_cases h1 : v < ls
      · simp only [if_pos h1, iht, ihe]
      · simp only [if_neg h1]
        cases NMap.find cnt ⟨neg, .node v t c e⟩ with
        | none => rfl
        | some q => simp only [constB_decide]

theorem roundP_gen (E : Env) (ls : Nat) (cnt : PMap ℚ) :
    ∀ (fuel : Nat) (p : Ptr) (mp : PMap Ptr) (H : NodeTable), roundP m E ls cnt fuel p mp H =
      genP m E (planRoundP ls cnt) fuel p mp H := by
  intro fuel
  induction fuel with
  | zero => intro p mp H; rfl
  | succ k ih =>
    intro p mp H
    rw [roundP, genP]
    cases H.nodeAt p.addr with
    | error x => rfl
    | ok d =>
      cases d with
      | one => rfl
      | node v t c e =>
        simp only [bind, Except.bind]
        cases PMap.find mp p with
        | some x => rfl
        | none =>
          simp only
          cases H.addrOf t with
          | error x => rfl
          | ok ta =>
            simp only
            cases H.addrOf e with
            | error x => rfl
            | ok ea =>
              simp only [planRoundP, pRound]
              by_cases h1 : v < ls
              · simp only [if_pos h1, ih]
              · simp only [if_neg h1]
                cases PMap.find cnt p with
                | none => rfl
                | some q => rfl

theorem planRound_ok (ls : Nat) (cntP : PMap ℚ) (cnt : NMap ℚ) :
    PlanOk cntP cnt (planRoundP ls cntP) (planRound ls cnt) := by
  intro H hv hc v t c e node nv nnv neg h1 h2 h3
  simp only [planRoundP, planRound, find_cnt hv hc h1]

/-! ### `round_best_rec` -/

def pBest (ls le v : Nat) : Option ℚ → Option ℚ → Plan
  | tc, ec =>
    if v < ls then .both
    else if v ≤ le then
      match tc, ec with
      | some tc, some ec =>
        if tc < ec ∧ tc < 1 - ec then .thenC false
        else if ec < tc ∧ ec < 1 - tc then .elseC false
        else if tc > ec ∧ tc > 1 - ec then .thenC true
        else if ec > tc ∧ ec > 1 - tc then .elseC true
        else .bothC (decide (tc > 1 / 2)) (decide (ec > 1 / 2))
      | _, _ => .fail .logicError
    else .keep

def planBest (ls le : Nat) (cnt : NMap ℚ) : Edge → Plan
  | ⟨_, .one⟩ => .keep
  | ⟨neg, .node v t c e⟩ => pBest ls le v (NMap.find cnt ⟨neg, t⟩) (NMap.find cnt ⟨neg ^^ c, e⟩)

def planBestP (ls le : Nat) (cnt : PMap ℚ) (v : Nat) (_ nv nnv : Ptr) : Plan :=
  pBest ls le v (PMap.find cnt nv) (PMap.find cnt nnv)

theorem roundBestRec_gen (ls le : Nat) (cnt : NMap ℚ) (d : DD) (h : d.WF m) :
    ∀ (neg : Bool) (mp : NMap (BDD m)), roundBestRec ls le cnt d h neg mp =
      genRec (planBest ls le cnt) d h neg mp := by
  induction d with
  | one => intro neg mp; rfl
  | node v t c e iht ihe =>
    intro neg mp
    rw [roundBestRec, genRec]
    cases NMap.find mp ⟨neg, .node v t c e⟩ with
    | some x => rfl
    | none =>
      simp only [planBest, pBest]
      by_cases h1 : v < ls
      · simp only [if_pos h1, iht, ihe]
      · simp only [if_neg h1]
        by_cases h2 : v ≤ le
        · simp only [if_pos h2]
          cases NMap.find cnt ⟨neg, t⟩ with
          | none => rfl
          | some tc =>
            cases NMap.find cnt ⟨neg ^^ c, e⟩ with
            | none => rfl
            | some ec =>
              simp only
              by_cases c1 : tc < ec ∧ tc < 1 - ec
              · simp only [if_pos c1, ihe]; rfl
              · simp only [if_neg c1]
                by_cases c2 : ec < tc ∧ ec < 1 - tc
                · simp only [if_pos c2, iht]; rfl
                · simp only [if_neg c2]
                  by_cases c3 : tc > ec ∧ tc > 1 - ec
                  · simp only [if_pos c3, ihe]; rfl
                  · simp only [if_neg c3]
                    by_cases c4 : ec > tc ∧ ec > 1 - tc
                    · simp only [if_pos c4, iht]; rfl
                    · simp only [if_neg c4, constB_decide]
        · simp only [if_neg h2]

theorem roundBestP_gen (E : Env) (ls le : Nat) (cnt : PMap ℚ) :
    ∀ (fuel : Nat) (p : Ptr) (mp : PMap Ptr) (H : NodeTable), roundBestP m E ls le cnt fuel p mp H =
      genP m E (planBestP ls le cnt) fuel p mp H := by
  intro fuel
  induction fuel with
  | zero => intro p mp H; rfl
  | succ k ih =>
    intro p mp H
    rw [roundBestP, genP]
    cases H.nodeAt p.addr with
    | error x => rfl
    | ok d =>
      cases d with
      | one => rfl
      | node v t c e =>
        simp only [bind, Except.bind]
        cases PMap.find mp p with
        | some x => rfl
        | none =>
          simp only
          cases H.addrOf t with
          | error x => rfl
          | ok ta =>
            simp only
            cases H.addrOf e with
            | error x => rfl
            | ok ea =>
              simp only [planBestP, pBest]
              by_cases h1 : v < ls
              · simp only [if_pos h1, ih]
              · simp only [if_neg h1]
                by_cases h2 : v ≤ le
                · simp only [if_pos h2]
                  cases PMap.find cnt ⟨p.neg, ta⟩ with
                  | none => rfl
                  | some tc =>
                    cases PMap.find cnt ⟨p.neg ^^ c, ea⟩ with
                    | none => rfl
                    | some ec =>
                      simp only
                      by_cases c1 : tc < ec ∧ tc < 1 - ec
                      · simp only [if_pos c1, ih]
                      · simp only [if_neg c1]
                        by_cases c2 : ec < tc ∧ ec < 1 - tc
                        · simp only [if_pos c2, ih]
                        · simp only [if_neg c2]
                          by_cases c3 : tc > ec ∧ tc > 1 - ec
                          · simp only [if_pos c3, ih]
                          · simp only [if_neg c3]
                            by_cases c4 : ec > tc ∧ ec > 1 - tc
                            · simp only [if_pos c4, ih]
                            · simp only [if_neg c4]
                · simp only [if_neg h2]

theorem planBest_ok (ls le : Nat) (cntP : PMap ℚ) (cnt : NMap ℚ) :
    PlanOk cntP cnt (planBestP ls le cntP) (planBest ls le cnt) := by
  intro H hv hc v t c e node nv nnv neg h1 h2 h3
  simp only [planBestP, planBest, find_cnt hv hc h2, find_cnt hv hc h3]

/-! ### Counts -/

theorem memoRec_keys (step : Nat → DD → DD → ℚ → ℚ → ℚ) (S : DD → Prop) : ∀ (d : DD) (neg : Bool) (mp : NMap ℚ),
    (∀ x ∈ mp, S x.1.n) → (∀ s ∈ d.subs, S s) → ∀ x ∈ (memoRec step d neg mp).2, S x.1.n := by
  intro d
  induction d with
  | one =>
    intro neg mp hmp hd x hx
    rw [memoRec] at hx
    cases hf : NMap.find mp ⟨neg, .one⟩ with
    | some q => rw [hf] at hx; exact hmp x hx
    | none =>
      rw [hf] at hx
      rcases List.mem_cons.mp hx with rfl | hx
      · exact hd _ (self_mem_subs _)
      · exact hmp x hx
  | node v t c e iht ihe =>
    intro neg mp hmp hd x hx
    rw [memoRec] at hx
    cases hf : NMap.find mp ⟨neg, .node v t c e⟩ with
    | some q => rw [hf] at hx; exact hmp x hx
    | none =>
      rw [hf] at hx
      rcases List.mem_cons.mp hx with rfl | hx
      · exact hd _ (self_mem_subs _)
      · have ht : ∀ s ∈ t.subs, S s := fun s hs => hd s (by simp [DD.subs, hs])
        have he : ∀ s ∈ e.subs, S s := fun s hs => hd s (by simp [DD.subs, hs])
        exact ihe _ _ (iht neg mp hmp ht) he x hx

theorem share_eq (d : DD) (neg : Bool) : share d neg = Edge.frac ⟨neg, d⟩ := by
  induction d generalizing neg with
  | one => cases neg <;> simp [share, Edge.frac, DD.frac]
  | node v t c e iht ihe =>
    simp only [share, iht, ihe, Edge.frac, DD.frac]
    cases neg <;> cases c <;> simp <;> ring

theorem solutions_eq (tl : Nat) (d : DD) (neg : Bool) :
    solutions tl d neg = Edge.frac ⟨neg, d⟩ * 2 ^ (tl - nodeLevel tl d) := by
  cases d with
  | one => simp [solutions, share_eq, nodeLevel]
  | node v t c e => simp only [solutions, share_eq, nodeLevel]

/-! ### The handles touched -/

/-- What a plan says about the children. -/
def Plan.go : Plan → Option (Bool × Bool)
  | .both => some (true, true)
  | .thenC _ => some (false, true)
  | .elseC _ => some (true, false)
  | .bothC .. => some (false, false)
  | _ => none

theorem touched_visits {plan : Edge → Plan} {go : Nat → Edge → Edge → Option (Bool × Bool)} (d : DD) :
    ∀ neg, (∀ neg' v t c e, (⟨neg', .node v t c e⟩ : Edge) ∈ d.reach neg →
      go v ⟨neg', t⟩ ⟨neg' ^^ c, e⟩ = (plan ⟨neg', .node v t c e⟩).go) →
    touched go d neg = (visits plan d neg).filter (fun k => (plan k).builds) := by
  induction d with
  | one => intro neg _; rfl
  | node v t c e iht ihe =>
    intro neg h
    have h0 := h neg v t c e (DD.self_mem_reach _ _)
    have ht := iht neg (fun neg' v' t' c' e' hm => h neg' v' t' c' e' (reach_then hm))
    have he := ihe (neg ^^ c) (fun neg' v' t' c' e' hm => h neg' v' t' c' e' (reach_else hm))
    rw [touched, h0]
    simp only [visits]
    cases hp : plan ⟨neg, .node v t c e⟩ <;> simp [Plan.go, Plan.builds, hp, ht, he, List.filter_append]

theorem touched_none {go : Nat → Edge → Edge → Option (Bool × Bool)} {d : DD} {neg : Bool} :
    (touched go d neg).dedup.length = 0 ↔
      d = .one ∨ ∃ v t c e, d = .node v t c e ∧ go v ⟨neg, t⟩ ⟨neg ^^ c, e⟩ = none := by
  cases d with
  | one => simp [touched]
  | node v t c e =>
    cases hg : go v ⟨neg, t⟩ ⟨neg ^^ c, e⟩ with
    | none =>
      simp only [touched, hg, List.dedup_nil, List.length_nil, true_iff]
      exact .inr ⟨v, t, c, e, rfl, hg⟩
    | some x =>
      simp only [touched, hg, reduceCtorEq, false_or, DD.node.injEq]
      constructor
      · intro h
        have h0 := List.length_pos_of_mem (List.mem_dedup.mpr (List.mem_cons_self (a := (⟨neg, .node v t c e⟩ : Edge))
          (l := (if x.1 = true then touched go t neg else []) ++ if x.2 = true then touched go e (neg ^^ c) else [])))
        omega
      · rintro ⟨_, _, _, _, ⟨rfl, rfl, rfl, rfl⟩, h⟩
        rw [hg] at h
        simp at h

/-! ### A whole operator -/

theorem gen_top {E : Env} (hE : E.Fresh) {H : NodeTable} {f : BDD m} (hR : H.Ready f) {cnt : NMap ℚ}
    (hcnt : ∀ x ∈ cnt, x.1.n ∈ f.edge.n.subs) {plan : Edge → Plan} {planP : PMap ℚ → Nat → Ptr → Ptr → Ptr → Plan}
    (hplan : ∀ cntP, PlanOk cntP cnt (planP cntP) plan) {r : BDD m} {mn' : NMap (BDD m)}
    (hrun : genRec plan f.edge.n f.wf f.edge.neg [] = .ok (r, mn')) {fuel : Nat} (hf : f.edge.n.size < fuel)
    {go : Nat → Edge → Edge → Option (Bool × Bool)}
    (hgo : ∀ neg' v t c e, (⟨neg', .node v t c e⟩ : Edge) ∈ f.edge.n.reach f.edge.neg →
      go v ⟨neg', t⟩ ⟨neg' ^^ c, e⟩ = (plan ⟨neg', .node v t c e⟩).go) :
    ∃ a cntP x q H', H.addrOf f.edge.n = .ok a ∧ ptrKeys H cnt = .ok cntP ∧
      genP m E (planP cntP) fuel ⟨f.edge.neg, a⟩ [] H = .ok x ∧ wrapP x = .ok (q, H') ∧
      H.After (touched go f.edge.n f.edge.neg) q r H' := by
  obtain ⟨a, ha, hr⟩ := hR.arg
  have hin : H.InUse f.edge.n := Held.inUse ⟨a, ha, hr⟩
  obtain ⟨cntP, hc1, hc2⟩ := ptrKeys_ok hR.valid cnt (fun x hx => hin.sub (hcnt x hx))
  obtain ⟨q, mp', H1, L, new, h1, h2, h3, h4, h5, h6⟩ := genP_ok hE (hplan cntP) f.edge.n f.wf fuel f.edge.neg
    ⟨f.edge.neg, a⟩ [] [] H hf hR.valid ⟨⟨rfl, ha⟩, hin⟩ hR.one
    (fun v hv => hR.vars v (by simpa [BDD.supportIndices] using hv)) hc2 .nil r mn' hrun
  obtain ⟨H2, g1, g2, g3, g4, g5⟩ := ref_ok h2.valid h3.1.2
  have hk := genRec_keys f.edge.n f.wf f.edge.neg [] r mn' ⟨by simp, by simp⟩ hrun
  rw [List.append_nil] at h5
  subst h5
  have hk2 : Keeps H1 H2 := keeps_of (fun a d h _ => by rw [g3]; exact h) (fun a => by rw [g5]; omega)
  refine ⟨a, cntP, _, q, H2, hR.valid.addrOf ha, hc1, h1, by simp only [wrapP, g1, bind, Except.bind], g2,
    h2.keeps.trans hk2, ⟨h3.1.1, by rw [g3]; exact h3.1.2⟩, L, ?_, ?_, ?_⟩
  · rw [h6]
    exact hk.1.nodup.filter _
  · intro k
    rw [h6, touched_visits _ _ hgo, List.mem_filter, List.mem_filter, hk.2]
    simp
  · intro b
    rw [g5, h2.refs]
    omega

/-! ### Counting the references -/

theorem total_eq {H : NodeTable} (hv : H.Valid) (S : Finset Nat) (hS : ∀ x ∈ H.table, x.1 ∈ S) :
    H.total = ∑ a ∈ S, H.refs a := by
  have h1 : H.total = ∑ a ∈ (H.table.map Prod.fst).toFinset, H.refs a := by
    rw [List.sum_toFinset _ hv.addrs, NodeTable.total, List.map_map]
    rfl
  rw [h1]
  apply Finset.sum_subset
  · intro a ha
    obtain ⟨x, hx, rfl⟩ := List.mem_map.mp (List.mem_toFinset.mp ha)
    exact hS x hx
  · intro a _ ha
    apply hv.unused
    intro d hd
    exact ha (List.mem_toFinset.mpr (List.mem_map.mpr ⟨_, hd, rfl⟩))

theorem mem_table_of_refs {H : NodeTable} (hv : H.Valid) {a : Nat} (h : H.refs a ≠ 0) : ∃ d, (a, d) ∈ H.table := by
  by_contra hn
  push Not at hn
  exact h (hv.unused a hn)

theorem After.total {H H' : NodeTable} (hv : H.Valid) {T : List Edge} {q : Ptr} {r : BDD m} (h : H.After T q r H') :
    H'.total = H.total + 1 + T.dedup.length := by
  obtain ⟨L, h1, h2, h3⟩ := h.refs
  have hlen : T.dedup.length = L.length := by
    rw [← List.length_map (f := Prod.fst) (as := L)]
    apply List.Perm.length_eq
    rw [List.perm_ext_iff_of_nodup (List.nodup_dedup _) h1]
    intro k
    rw [List.mem_dedup, h2]
  set S := (H.table.map Prod.fst).toFinset ∪ (H'.table.map Prod.fst).toFinset with hS
  have hmem' : ∀ a d, (a, d) ∈ H'.table → a ∈ S := fun a d had => by
    rw [hS, Finset.mem_union]
    exact .inr (List.mem_toFinset.mpr (List.mem_map.mpr ⟨_, had, rfl⟩))
  rw [total_eq hv S (fun x hx => by
      rw [hS, Finset.mem_union]
      exact .inl (List.mem_toFinset.mpr (List.mem_map.mpr ⟨x, hx, rfl⟩))),
    total_eq h.valid S (fun x hx => hmem' _ _ hx), Finset.sum_congr rfl (fun a _ => h3 a), Finset.sum_add_distrib,
    Finset.sum_add_distrib, hlen]
  have e1 : (∑ a ∈ S, if a = q.addr then 1 else 0) = 1 := by
    rw [Finset.sum_ite_eq' S q.addr (fun _ => 1), if_pos (hmem' _ _ h.result.2)]
  have e2 : ∑ a ∈ S, (L.map Prod.snd).count a = L.length := by
    rw [← List.length_map (f := Prod.snd) (as := L), ← List.sum_toFinset_count_eq_length (L.map Prod.snd)]
    symm
    apply Finset.sum_subset
    · intro a ha
      have hc : 0 < (L.map Prod.snd).count a := List.count_pos_iff.mpr (List.mem_toFinset.mp ha)
      obtain ⟨d, hd⟩ := mem_table_of_refs h.valid (a := a) (by rw [h3]; omega)
      exact hmem' a d hd
    · intro a _ ha
      exact List.count_eq_zero.mpr (fun hc => ha (List.mem_toFinset.mpr hc))
  rw [e1, e2]

theorem After.held {H H' : NodeTable} {T : List Edge} {q : Ptr} {r : BDD m} (h : H.After T q r H') {d : DD} (hd : H.Held d) :
    H'.Held d := by
  obtain ⟨a, h1, h2⟩ := hd
  obtain ⟨L, _, _, h3⟩ := h.refs
  refine ⟨a, (h.kept a d h1 (Held.inUse ⟨a, h1, h2⟩)).1, ?_⟩
  rw [h3]
  omega

theorem After.ready {H H' : NodeTable} {T : List Edge} {q : Ptr} {r : BDD m} (h : H.After T q r H') {g : BDD m}
    (hg : H.Ready g) : H'.Ready g :=
  ⟨h.valid, After.held h hg.arg, After.held h hg.one, fun v hv => After.held h (hg.vars v hv)⟩

theorem After.ready_result {H H' : NodeTable} {T : List Edge} {q : Ptr} {f r : BDD m} (h : H.After T q r H')
    (hf : H.Ready f) (hs : ∀ v ∈ r.supportIndices, v ∈ f.supportIndices) : H'.Ready r := by
  refine ⟨h.valid, ⟨q.addr, h.result.2, ?_⟩, After.held h hf.one, fun v hv => After.held h (hf.vars v (hs v hv))⟩
  obtain ⟨L, _, _, h3⟩ := h.refs
  rw [h3, if_pos rfl]
  omega

/-- The object is destroyed: what it held goes. -/
theorem After.drop {H H' : NodeTable} (hv : H.Valid) {T : List Edge} {q : Ptr} {r : BDD m} (h : H.After T q r H') :
    ∃ H'', H'.deref q = .ok H'' ∧ H''.Valid ∧ (∀ a, H.refs a ≤ H''.refs a) ∧ H''.total = H.total + T.dedup.length ∧
      ∀ d, H.Held d → H''.Held d := by
  obtain ⟨L, h1, h2, h3⟩ := h.refs
  have hpos : 0 < H'.refs q.addr := by
    rw [h3, if_pos rfl]
    omega
  obtain ⟨H'', g1, g2, g3, g4, g5⟩ := deref_ok h.valid h.result.2 hpos
  have hle : ∀ a, H.refs a ≤ H''.refs a := by
    intro a
    rw [g5, h3]
    omega
  refine ⟨H'', g1, g2, hle, ?_, ?_⟩
  · have ht := After.total hv h
    have : H'.total = H''.total + 1 := by
      set S := (H'.table.map Prod.fst).toFinset with hS
      have hm : ∀ x ∈ H'.table, x.1 ∈ S := fun x hx => List.mem_toFinset.mpr (List.mem_map.mpr ⟨x, hx, rfl⟩)
      rw [total_eq h.valid S hm, total_eq g2 S (by rw [g3]; exact hm),
        ← Finset.sum_erase_add S _ (hm _ h.result.2), ← Finset.sum_erase_add S (fun a => H''.refs a) (hm _ h.result.2)]
      have e1 : ∑ a ∈ S.erase q.addr, H''.refs a = ∑ a ∈ S.erase q.addr, H'.refs a := by
        apply Finset.sum_congr rfl
        intro a ha
        rw [g5, if_neg (Finset.ne_of_mem_erase ha), Nat.sub_zero]
      have e2 : H''.refs q.addr = H'.refs q.addr - 1 := by rw [g5, if_pos rfl]
      simp only [e1, e2]
      omega
    omega
  · rintro d ⟨a, k1, k2⟩
    refine ⟨a, ?_, k2.trans_le (hle a)⟩
    rw [g3]
    exact (h.kept a d k1 (Held.inUse ⟨a, k1, k2⟩)).1

/-! ### The support of a result -/

theorem NMap.pair_of_find {α : Type} {mn : NMap α} {e : Edge} {x : α} (h : NMap.find mn e = some x) : (e, x) ∈ mn := by
  induction mn with
  | nil => simp [NMap.find] at h
  | cons y ys ih =>
    obtain ⟨k, w⟩ := y
    simp only [NMap.find] at h
    by_cases hk : k = e
    · rw [if_pos hk, Option.some.injEq] at h
      subst hk h
      exact List.mem_cons_self ..
    · rw [if_neg hk] at h
      exact List.mem_cons_of_mem _ (ih h)

theorem ite_vars {v w : Nat} {g h : BDD m} (hv : w ∈ (BDD.ite (.var v) g h).supportIndices) :
    w = v ∨ w ∈ g.supportIndices ∨ w ∈ h.supportIndices := by
  by_contra hn
  push Not at hn
  obtain ⟨x, hx⟩ := BDD.mem_supportIndices.mp hv
  apply hx
  have hg : g.eval (Function.update x w true) = g.eval (Function.update x w false) := by
    by_contra hc
    exact hn.2.1 (BDD.mem_supportIndices.mpr ⟨x, hc⟩)
  have hh : h.eval (Function.update x w true) = h.eval (Function.update x w false) := by
    by_contra hc
    exact hn.2.2 (BDD.mem_supportIndices.mpr ⟨x, hc⟩)
  simp only [BDD.eval_ite, BDD.eval_var, hg, hh, Function.update_of_ne (Ne.symm hn.1)]

theorem constB_vars {b : Bool} {w : Nat} (h : w ∈ (constB b : BDD m).supportIndices) : False := by
  obtain ⟨x, hx⟩ := BDD.mem_supportIndices.mp h
  cases b <;> simp [constB] at hx

theorem genRec_vars {plan : Edge → Plan} (S : Nat → Prop) (d : DD) (h : d.WF m) : ∀ (neg : Bool) (mn : NMap (BDD m)) r mn',
    (∀ v ∈ d.vars, S v) → (∀ x ∈ mn, ∀ v ∈ x.2.supportIndices, S v) → genRec plan d h neg mn = .ok (r, mn') →
    (∀ v ∈ r.supportIndices, S v) ∧ ∀ x ∈ mn', ∀ v ∈ x.2.supportIndices, S v := by
  induction d with
  | one =>
    intro neg mn r mn' hd hm hrun
    simp only [genRec, Except.ok.injEq, Prod.mk.injEq] at hrun
    obtain ⟨rfl, rfl⟩ := hrun
    exact ⟨by simp [BDD.supportIndices, BDD.ofNode, DD.vars], hm⟩
  | node v t c e iht ihe =>
    intro neg mn r mn' hd hm hrun
    have hdt : ∀ w ∈ t.vars, S w := fun w hw => hd w (by simp [DD.vars, hw])
    have hde : ∀ w ∈ e.vars, S w := fun w hw => hd w (by simp [DD.vars, hw])
    have hdv : S v := hd v (by simp [DD.vars])
    have hite : ∀ g k : BDD m, (∀ w ∈ g.supportIndices, S w) → (∀ w ∈ k.supportIndices, S w) →
        ∀ w ∈ (BDD.ite (.var v) g k).supportIndices, S w := by
      intro g k hg hk w hw
      rcases ite_vars hw with rfl | h1 | h1
      · exact hdv
      · exact hg w h1
      · exact hk w h1
    have hcon : ∀ b, ∀ w ∈ (constB b : BDD m).supportIndices, S w := fun b w hw => (constB_vars hw).elim
    have hins : ∀ (mn2 : NMap (BDD m)) (b : BDD m), (∀ x ∈ mn2, ∀ v ∈ x.2.supportIndices, S v) →
        (∀ v ∈ b.supportIndices, S v) → ∀ x ∈ NMap.insert mn2 ⟨neg, .node v t c e⟩ b, ∀ v ∈ x.2.supportIndices, S v := by
      intro mn2 b h1 h2 x hx
      rcases List.mem_cons.mp hx with rfl | hx
      · exact h2
      · exact h1 x hx
    rw [genRec] at hrun
    cases hf : NMap.find mn ⟨neg, .node v t c e⟩ with
    | some x =>
      rw [hf] at hrun
      simp only [Except.ok.injEq, Prod.mk.injEq] at hrun
      obtain ⟨rfl, rfl⟩ := hrun
      exact ⟨hm _ (NMap.pair_of_find hf), hm⟩
    | none =>
      rw [hf] at hrun
      simp only at hrun
      cases hpp : plan ⟨neg, .node v t c e⟩ with
      | keep =>
        rw [hpp] at hrun
        simp only [Except.ok.injEq, Prod.mk.injEq] at hrun
        obtain ⟨rfl, rfl⟩ := hrun
        exact ⟨fun w hw => hd w (by simpa [BDD.supportIndices, BDD.ofNode] using hw), hm⟩
      | both =>
        rw [hpp] at hrun
        simp only [bind, Except.bind] at hrun
        cases ht : genRec plan t h.1 neg mn with
        | error x => rw [ht] at hrun; simp at hrun
        | ok x =>
          obtain ⟨rt, mt⟩ := x
          rw [ht] at hrun
          simp only at hrun
          cases he : genRec plan e h.2.1 (neg ^^ c) mt with
          | error x => rw [he] at hrun; simp at hrun
          | ok x =>
            obtain ⟨re, me⟩ := x
            rw [he] at hrun
            simp only [Except.ok.injEq, Prod.mk.injEq] at hrun
            obtain ⟨rfl, rfl⟩ := hrun
            obtain ⟨i1, i2⟩ := iht h.1 neg mn rt mt hdt hm ht
            obtain ⟨i3, i4⟩ := ihe h.2.1 (neg ^^ c) mt re me hde i2 he
            exact ⟨hite _ _ i1 i3, hins _ _ i4 (hite _ _ i1 i3)⟩
      | thenC b =>
        rw [hpp] at hrun
        simp only [bind, Except.bind] at hrun
        cases he : genRec plan e h.2.1 (neg ^^ c) mn with
        | error x => rw [he] at hrun; simp at hrun
        | ok x =>
          obtain ⟨re, me⟩ := x
          rw [he] at hrun
          simp only [Except.ok.injEq, Prod.mk.injEq] at hrun
          obtain ⟨rfl, rfl⟩ := hrun
          obtain ⟨i3, i4⟩ := ihe h.2.1 (neg ^^ c) mn re me hde hm he
          exact ⟨hite _ _ (hcon b) i3, hins _ _ i4 (hite _ _ (hcon b) i3)⟩
      | elseC b =>
        rw [hpp] at hrun
        simp only [bind, Except.bind] at hrun
        cases ht : genRec plan t h.1 neg mn with
        | error x => rw [ht] at hrun; simp at hrun
        | ok x =>
          obtain ⟨rt, mt⟩ := x
          rw [ht] at hrun
          simp only [Except.ok.injEq, Prod.mk.injEq] at hrun
          obtain ⟨rfl, rfl⟩ := hrun
          obtain ⟨i1, i2⟩ := iht h.1 neg mn rt mt hdt hm ht
          exact ⟨hite _ _ i1 (hcon b), hins _ _ i2 (hite _ _ i1 (hcon b))⟩
      | bothC a b =>
        rw [hpp] at hrun
        simp only [Except.ok.injEq, Prod.mk.injEq] at hrun
        obtain ⟨rfl, rfl⟩ := hrun
        exact ⟨hite _ _ (hcon a) (hcon b), hins _ _ hm (hite _ _ (hcon a) (hcon b))⟩
      | replace b =>
        rw [hpp] at hrun
        simp only [Except.ok.injEq, Prod.mk.injEq] at hrun
        obtain ⟨rfl, rfl⟩ := hrun
        exact ⟨hcon b, hins _ _ hm (hcon b)⟩
      | fail x =>
        rw [hpp] at hrun
        simp at hrun

/-! ### The operators -/

theorem minterm_keys (f : BDD m) : ∀ x ∈ countMinterms f, x.1.n ∈ f.edge.n.subs := by
  unfold countMinterms
  rw [countMintermsRec_eq]
  exact memoRec_keys mintermStep (fun d => d ∈ f.edge.n.subs) f.edge.n f.edge.neg [] (by simp) (fun _ h => h)

theorem solution_keys (f : BDD m) : ∀ x ∈ countSolutions f, x.1.n ∈ f.edge.n.subs := by
  unfold countSolutions
  rw [countSolutionsRec_eq]
  exact memoRec_keys (solutionStep _) (fun d => d ∈ f.edge.n.subs) f.edge.n f.edge.neg [] (by simp) (fun _ h => h)

theorem reach_children {f : Edge} {v : Nat} {t e : DD} {c neg : Bool}
    (h : (⟨neg, .node v t c e⟩ : Edge) ∈ f.n.reach f.neg) :
    (⟨neg, t⟩ : Edge) ∈ f.n.reach f.neg ∧ (⟨neg ^^ c, e⟩ : Edge) ∈ f.n.reach f.neg :=
  ⟨DD.reach_trans h _ (reach_then (DD.self_mem_reach _ _)), DD.reach_trans h _ (reach_else (DD.self_mem_reach _ _))⟩

theorem goRemove_plan {w : Edge → ℚ} {cnt : NMap ℚ} {f : Edge} (hw : ∀ a ∈ f.n.reach f.neg, NMap.find cnt a = some (w a))
    (ls le : Nat) (heavy subset : Bool) : ∀ neg' v t c e, (⟨neg', .node v t c e⟩ : Edge) ∈ f.n.reach f.neg →
      goRemove w ls le heavy v ⟨neg', t⟩ ⟨neg' ^^ c, e⟩ =
        (planRemove ls le cnt heavy subset ⟨neg', .node v t c e⟩).go := by
  intro neg v t c e h
  obtain ⟨h1, h2⟩ := reach_children h
  simp only [goRemove, planRemove, pRemove, hw _ h1, hw _ h2]
  split_ifs <;> rfl

theorem goRound_plan {cnt : NMap ℚ} {f : Edge} (ls : Nat) : ∀ neg' v t c e,
    (⟨neg', .node v t c e⟩ : Edge) ∈ f.n.reach f.neg →
      goRound ls v ⟨neg', t⟩ ⟨neg' ^^ c, e⟩ = (planRound ls cnt ⟨neg', .node v t c e⟩).go := by
  intro neg v t c e _
  simp only [goRound, planRound, pRound]
  by_cases h : v < ls
  · simp only [if_pos h]; rfl
  · simp only [if_neg h]
    cases NMap.find cnt ⟨neg, .node v t c e⟩ <;> rfl

theorem closer_iff (p q : ℚ) : |p - 1 / 2| < |q - 1 / 2| ↔ (q < p ∧ q < 1 - p) ∨ (q > p ∧ q > 1 - p) := by
  constructor
  · intro h
    rcases abs_cases (q - 1 / 2) with ⟨e, _⟩ | ⟨e, _⟩ <;> rw [e] at h <;> rw [abs_lt] at h
    · exact .inr ⟨by linarith, by linarith⟩
    · exact .inl ⟨by linarith, by linarith⟩
  · rintro (⟨h1, h2⟩ | ⟨h1, h2⟩)
    · have : q - 1 / 2 < 0 := by linarith
      rw [abs_of_neg this, abs_lt]
      exact ⟨by linarith, by linarith⟩
    · have : 0 < q - 1 / 2 := by linarith
      rw [abs_of_pos this, abs_lt]
      exact ⟨by linarith, by linarith⟩

theorem goBest_plan {cnt : NMap ℚ} {f : Edge} (hw : ∀ a ∈ f.n.reach f.neg, NMap.find cnt a = some (Edge.frac a))
    (ls le : Nat) : ∀ neg' v t c e, (⟨neg', .node v t c e⟩ : Edge) ∈ f.n.reach f.neg →
      goBest ls le v ⟨neg', t⟩ ⟨neg' ^^ c, e⟩ = (planBest ls le cnt ⟨neg', .node v t c e⟩).go := by
  intro neg v t c e h
  obtain ⟨h1, h2⟩ := reach_children h
  simp only [goBest, planBest, pBest, hw _ h1, hw _ h2, share_eq, closer_iff]
  generalize Edge.frac ⟨neg, t⟩ = tc
  generalize Edge.frac ⟨neg ^^ c, e⟩ = ec
  by_cases h3 : v < ls
  · simp only [if_pos h3]; rfl
  · simp only [if_neg h3]
    by_cases h4 : v ≤ le
    · simp only [if_pos h4]
      by_cases c1 : tc < ec ∧ tc < 1 - ec
      · have n1 : ¬ ((ec < tc ∧ ec < 1 - tc) ∨ (ec > tc ∧ ec > 1 - tc)) := by
          rintro (⟨_, _⟩ | ⟨_, _⟩) <;> linarith [c1.1, c1.2]
        rw [if_pos c1, decide_eq_true (Or.inl c1), decide_eq_false n1]
        rfl
      · rw [if_neg c1]
        by_cases c2 : ec < tc ∧ ec < 1 - tc
        · have n1 : ¬ ((tc < ec ∧ tc < 1 - ec) ∨ (tc > ec ∧ tc > 1 - ec)) := by
            rintro (⟨_, _⟩ | ⟨_, _⟩) <;> linarith [c2.1, c2.2]
          rw [if_pos c2, decide_eq_true (Or.inl c2), decide_eq_false n1]
          rfl
        · rw [if_neg c2]
          by_cases c3 : tc > ec ∧ tc > 1 - ec
          · have n1 : ¬ ((ec < tc ∧ ec < 1 - tc) ∨ (ec > tc ∧ ec > 1 - tc)) := by
              rintro (⟨_, _⟩ | ⟨_, _⟩) <;> linarith [c3.1, c3.2]
            rw [if_pos c3, decide_eq_true (Or.inr c3), decide_eq_false n1]
            rfl
          · rw [if_neg c3]
            have n1 : ¬ ((tc < ec ∧ tc < 1 - ec) ∨ (tc > ec ∧ tc > 1 - ec)) := by
              rintro (h | h)
              · exact c1 h
              · exact c3 h
            by_cases c4 : ec > tc ∧ ec > 1 - tc
            · rw [if_pos c4, decide_eq_true (Or.inr c4), decide_eq_false n1]
              rfl
            · have n2 : ¬ ((ec < tc ∧ ec < 1 - tc) ∨ (ec > tc ∧ ec > 1 - tc)) := by
                rintro (h | h)
                · exact c2 h
                · exact c4 h
              rw [if_neg c4, decide_eq_false n1, decide_eq_false n2]
              rfl
    · simp only [if_neg h4]; rfl

end Verif

import Verif.Proofs.Support

/-!
# Sizes: how many nodes the operators can produce
-/

namespace Verif

variable {m : Mgr}

theorem subs_mk' (v : Nat) (a b : Edge) {d : DD} (h : d ∈ (Edge.mk' v a b).n.subs) :
    d = (Edge.mk' v a b).n ∨ d ∈ a.n.subs ∨ d ∈ b.n.subs := by
  unfold Edge.mk' at *
  split at h
  · exact .inr (.inl (by simpa [*] using h))
  · rename_i hab
    split at h
    · rename_i hn
      simp only [DD.subs, List.mem_cons, List.mem_append] at h
      simpa [hab, hn] using h
    · rename_i hn
      simp only [DD.subs, List.mem_cons, List.mem_append] at h
      simpa [hab, hn] using h

theorem self_mem_subs (d : DD) : d ∈ d.subs := by cases d <;> simp [DD.subs]

theorem one_mem_subs (d : DD) : DD.one ∈ d.subs := by
  induction d with
  | one => simp [DD.subs]
  | node v t c e iht ihe => simp [DD.subs, iht]

theorem reach_mem_subs {d : DD} {neg : Bool} {a : Edge} (h : a ∈ d.reach neg) : a.n ∈ d.subs := by
  induction d generalizing neg with
  | one => simp only [DD.reach, List.mem_singleton] at h; simp [h, DD.subs]
  | node v t c e iht ihe =>
    simp only [DD.reach, List.mem_cons, List.mem_append] at h
    rcases h with rfl | h | h
    · exact self_mem_subs _
    · simp [DD.subs, iht h]
    · simp [DD.subs, ihe h]

/-- One of the terminals. -/
def Const (a : Edge) : Prop := a.n = .one

theorem subs_trans {d u w : DD} (h1 : u ∈ d.subs) (h2 : w ∈ u.subs) : w ∈ d.subs := by
  induction d with
  | one =>
    simp only [DD.subs, List.mem_singleton] at h1
    rwa [h1] at h2
  | node v t c e iht ihe =>
    simp only [DD.subs, List.mem_cons, List.mem_append] at h1
    rcases h1 with rfl | h1 | h1
    · exact h2
    · simp [DD.subs, iht h1]
    · simp [DD.subs, ihe h1]

theorem subs_reach {d u : DD} (h : u ∈ d.subs) (neg : Bool) : ∃ a ∈ d.reach neg, a.n = u := by
  induction d generalizing neg with
  | one =>
    simp only [DD.subs, List.mem_singleton] at h
    exact ⟨⟨neg, .one⟩, by simp [DD.reach], h.symm⟩
  | node v t c e iht ihe =>
    simp only [DD.subs, List.mem_cons, List.mem_append] at h
    rcases h with rfl | h | h
    · exact ⟨_, DD.self_mem_reach _ neg, rfl⟩
    · obtain ⟨a, h1, h2⟩ := iht h neg
      exact ⟨a, reach_then h1, h2⟩
    · obtain ⟨a, h1, h2⟩ := ihe h (neg ^^ c)
      exact ⟨a, reach_else h1, h2⟩

theorem subs_var {d t e : DD} {v : Nat} {k : Bool} (h : DD.node v t k e ∈ d.subs) : v ∈ d.vars := by
  induction d with
  | one => simp [DD.subs] at h
  | node w t' c e' iht ihe =>
    simp only [DD.subs, List.mem_cons, List.mem_append] at h
    rcases h with h | h | h
    · cases h; simp [DD.vars]
    · simp [DD.vars, iht h]
    · simp [DD.vars, ihe h]

/-- A map on handles that replaces a node by a terminal, by a node of the same variable whose children are
terminals or the images of the children, or, for the variables in `S`, by itself. -/
structure Local (S : Nat → Prop) (Φ : DD → Bool → Edge) : Prop where
  one : ∀ neg, Φ .one neg = ⟨neg, .one⟩
  node : ∀ v t k e neg, Const (Φ (.node v t k e) neg) ∨
    (∃ X Y, Φ (.node v t k e) neg = Edge.mk' v X Y ∧ (Const X ∨ X = Φ t neg) ∧
      (Const Y ∨ Y = Φ e (neg ^^ k))) ∨
    S v
  stop : ∀ v t k e neg, S v → Φ (.node v t k e) neg = ⟨neg, .node v t k e⟩

theorem Const.wf {a : Edge} (h : Const a) : a.n.WF m := by rw [h]; trivial
theorem Const.below {a : Edge} (h : Const a) (l : Nat) : a.n.Below m l := by rw [h]; trivial

theorem Local.wf {S : Nat → Prop} {Φ : DD → Bool → Edge} (hΦ : Local S Φ) (d : DD) (hd : d.WF m) (neg : Bool) :
    (Φ d neg).n.WF m ∧ ∀ l, d.Below m l → (Φ d neg).n.Below m l := by
  induction d generalizing neg with
  | one => rw [hΦ.one]; exact ⟨trivial, fun _ _ => trivial⟩
  | node v t k e iht ihe =>
    obtain ⟨ht, he, htb, heb, hr⟩ := id hd
    rcases hΦ.node v t k e neg with h | ⟨X, Y, h, hX, hY⟩ | h
    · exact ⟨h.wf, fun l _ => h.below l⟩
    · have hX' : X.n.WF m ∧ X.n.Below m (m.lvl v) := by
        rcases hX with hX | rfl
        · exact ⟨hX.wf, hX.below _⟩
        · exact ⟨(iht ht neg).1, (iht ht neg).2 _ htb⟩
      have hY' : Y.n.WF m ∧ Y.n.Below m (m.lvl v) := by
        rcases hY with hY | rfl
        · exact ⟨hY.wf, hY.below _⟩
        · exact ⟨(ihe he _).1, (ihe he _).2 _ heb⟩
      rw [h]
      exact ⟨Edge.wf_mk' hX'.1 hY'.1 hX'.2 hY'.2, fun l hl => Edge.below_mk' hX'.2 hl⟩
    · rw [hΦ.stop v t k e neg h]
      exact ⟨hd, fun l hl => hl⟩

/-- The nodes of the image: the terminal, images of handles, and old nodes. -/
theorem Local.subs {S : Nat → Prop} {Φ : DD → Bool → Edge} (hΦ : Local S Φ) (d : DD) (neg : Bool) {u : DD}
    (hu : u ∈ (Φ d neg).n.subs) :
    u = .one ∨ (∃ a ∈ d.reach neg, a.n ≠ .one ∧ u = (Φ a.n a.neg).n) ∨
      ∃ v t k e b, ⟨b, .node v t k e⟩ ∈ d.reach neg ∧ S v ∧ u ∈ (DD.node v t k e).subs := by
  induction d generalizing neg with
  | one =>
    rw [hΦ.one] at hu
    simp only [DD.subs, List.mem_singleton] at hu
    exact .inl hu
  | node v t k e iht ihe =>
    have hconst : ∀ {X : Edge}, Const X → u ∈ X.n.subs → u = .one := by
      intro X hX h
      rw [hX] at h
      simpa [DD.subs] using h
    have lift : ∀ {d' : DD} {neg' : Bool}, (∀ a ∈ d'.reach neg', a ∈ (DD.node v t k e).reach neg) →
        (u = .one ∨ (∃ a ∈ d'.reach neg', a.n ≠ .one ∧ u = (Φ a.n a.neg).n) ∨
          ∃ v t k e b, ⟨b, .node v t k e⟩ ∈ d'.reach neg' ∧ S v ∧ u ∈ (DD.node v t k e).subs) →
        u = .one ∨ (∃ a ∈ (DD.node v t k e).reach neg, a.n ≠ .one ∧ u = (Φ a.n a.neg).n) ∨
          ∃ v' t' k' e' b, ⟨b, .node v' t' k' e'⟩ ∈ (DD.node v t k e).reach neg ∧ S v' ∧
            u ∈ (DD.node v' t' k' e').subs := by
      rintro d' neg' hsub (h | ⟨a, h1, h2⟩ | ⟨v', t', k', e', b, h1, h2⟩)
      · exact .inl h
      · exact .inr (.inl ⟨a, hsub a h1, h2⟩)
      · exact .inr (.inr ⟨v', t', k', e', b, hsub _ h1, h2⟩)
    rcases hΦ.node v t k e neg with h | ⟨X, Y, h, hX, hY⟩ | h
    · exact .inl (hconst h hu)
    · rw [h] at hu
      rcases subs_mk' v X Y hu with hu | hu | hu
      · exact .inr (.inl ⟨⟨neg, .node v t k e⟩, by simp [DD.reach], by simp, by rw [h]; exact hu⟩)
      · rcases hX with hX | rfl
        · exact .inl (hconst hX hu)
        · exact lift (fun a ha => reach_then ha) (iht neg hu)
      · rcases hY with hY | rfl
        · exact .inl (hconst hY hu)
        · exact lift (fun a ha => reach_else ha) (ihe _ hu)
    · rw [hΦ.stop v t k e neg h] at hu
      exact .inr (.inr ⟨v, t, k, e, neg, by simp [DD.reach], h, hu⟩)

/-- The nodes other than the terminal. -/
def inner (f : List (BDD m)) : Finset DD := (f.flatMap (fun b => b.edge.n.subs)).toFinset.erase .one

theorem mem_inner {f : List (BDD m)} {u : DD} : u ∈ inner f ↔ u ≠ .one ∧ ∃ b ∈ f, u ∈ b.edge.n.subs := by
  simp [inner]

theorem nodeCount_eq {f : List (BDD m)} (hf : f ≠ []) : nodeCount f = (inner f).card + 1 := by
  unfold nodeCount inner
  rw [Finset.card_erase_add_one, List.card_toFinset]
  obtain ⟨b, bs, rfl⟩ := List.exists_cons_of_ne_nil hf
  simp [one_mem_subs]

/-- Node count of a vector all of whose bits are images under a local map. -/
theorem Local.nodeCount_le {S : Nat → Prop} {Φ : DD → Bool → Edge} (hΦ : Local S Φ) {f g : List (BDD m)}
    (h : List.Forall₂ (fun b r : BDD m => r.edge = Φ b.edge.n b.edge.neg) f g) :
    nodeCount g ≤ 3 * nodeCount f - 2 ∧
    ((∀ v w, m.lvl v < m.lvl w → S v → S w) →
      nodeCount g ≤ 2 * nodeCount f - 1) := by
  by_cases hf : f = []
  · subst hf
    cases h
    simp [nodeCount]
  have hg : g ≠ [] := by
    rintro rfl
    cases h
    exact hf rfl
  rw [nodeCount_eq hf, nodeCount_eq hg]
  have key : ∀ u ∈ inner g, (∃ c, ∃ w ∈ inner f, (Φ w c).n = u) ∨
      ∃ b ∈ f, ∃ v t k e, .node v t k e ∈ b.edge.n.subs ∧ (DD.node v t k e).WF m ∧ S v ∧
        u ∈ (DD.node v t k e).subs := by
    intro u hu
    obtain ⟨h1, r, hr, hu⟩ := mem_inner.mp hu
    obtain ⟨i, hi, rfl⟩ := List.mem_iff_getElem.mp hr
    have hi' : i < f.length := by rw [h.length_eq]; exact hi
    have e := h.get hi' hi
    dsimp only [List.get_eq_getElem] at e
    rw [e] at hu
    rcases hΦ.subs _ _ hu with h2 | ⟨a, ha, hne, rfl⟩ | ⟨v, t, k, e, c, ha, h3, h4⟩
    · exact absurd h2 h1
    · exact .inl ⟨a.neg, a.n, mem_inner.mpr ⟨hne, _, List.getElem_mem hi', reach_mem_subs ha⟩, rfl⟩
    · exact .inr ⟨_, List.getElem_mem hi', v, t, k, e, reach_mem_subs ha, DD.reach_wf (f[i].wf) ha, h3, h4⟩
  have himg : ∀ c, ((inner f).image (fun w => (Φ w c).n)).card ≤ (inner f).card := fun c =>
    Finset.card_image_le
  have htwo : ((inner f).image (fun w => (Φ w true).n) ∪ (inner f).image (fun w => (Φ w false).n)).card ≤
      2 * (inner f).card := by
    refine le_trans (Finset.card_union_le _ _) ?_
    have := himg true
    have := himg false
    omega
  constructor
  · have hsub : inner g ⊆ ((inner f).image (fun w => (Φ w true).n) ∪
        (inner f).image (fun w => (Φ w false).n)) ∪ inner f := by
      intro u hu
      rw [Finset.mem_union, Finset.mem_union]
      rcases key u hu with ⟨c, w, hw, rfl⟩ | ⟨b, hb, v, t, k, e, ha, -, -, h4⟩
      · left
        cases c
        · exact .inr (Finset.mem_image_of_mem _ hw)
        · exact .inl (Finset.mem_image_of_mem _ hw)
      · right
        refine mem_inner.mpr ⟨(mem_inner.mp hu).1, b, hb, ?_⟩
        exact subs_trans ha h4
    have h1 := Finset.card_le_card hsub
    have h2 := Finset.card_union_le ((inner f).image (fun w => (Φ w true).n) ∪
        (inner f).image (fun w => (Φ w false).n)) (inner f)
    omega
  · intro hstop
    have hsub : inner g ⊆ (inner f).image (fun w => (Φ w true).n) ∪
        (inner f).image (fun w => (Φ w false).n) := by
      intro u hu
      rw [Finset.mem_union]
      have : ∃ c, ∃ w ∈ inner f, (Φ w c).n = u := by
        rcases key u hu with h | ⟨b, hb, v, t, k, e, ha, hwf, h3, h4⟩
        · exact h
        · refine ⟨false, u, mem_inner.mpr ⟨(mem_inner.mp hu).1, b, hb, subs_trans ha h4⟩, ?_⟩
          cases u with
          | one => exact absurd rfl (mem_inner.mp hu).1
          | node w t' k' e' =>
            have hS : S w := by
              simp only [DD.subs, List.mem_cons, List.mem_append] at h4
              rcases h4 with h4 | h4 | h4
              · cases h4; exact h3
              · exact hstop v w (DD.Below.vars hwf.1 hwf.2.2.1 w (subs_var h4)) h3
              · exact hstop v w (DD.Below.vars hwf.2.1 hwf.2.2.2.1 w (subs_var h4)) h3
            rw [hΦ.stop w t' k' e' false hS]
      obtain ⟨c, w, hw, rfl⟩ := this
      cases c
      · exact .inr (Finset.mem_image_of_mem _ hw)
      · exact .inl (Finset.mem_image_of_mem _ hw)
    have h1 := Finset.card_le_card hsub
    omega

/-! ### The operators as local maps -/

/-- A terminal. -/
def constE (b : Bool) : Edge := ⟨!b, .one⟩

theorem constE_const (b : Bool) : Const (constE b) := rfl
theorem constE_eval (b : Bool) (x : Asg) : (constE b).eval x = b := by cases b <;> rfl

def removeE (c : Edge → ℚ) (ls le : Nat) (heavy subset : Bool) : DD → Bool → Edge
  | .one, neg => ⟨neg, .one⟩
  | .node v t k e, neg =>
    if v < ls then
      Edge.mk' v (removeE c ls le heavy subset t neg) (removeE c ls le heavy subset e (neg ^^ k))
    else if v ≤ le then
      if heavy = decide (c ⟨neg, t⟩ > c ⟨neg ^^ k, e⟩) then
        Edge.mk' v (constE (!subset)) (removeE c ls le heavy subset e (neg ^^ k))
      else
        Edge.mk' v (removeE c ls le heavy subset t neg) (constE (!subset))
    else ⟨neg, .node v t k e⟩

theorem removeE_eval (c : Edge → ℚ) (ls le : Nat) (heavy subset : Bool) (d : DD) (neg : Bool) (x : Asg) :
    (removeE c ls le heavy subset d neg).eval x = removeSem c ls le heavy subset d neg x := by
  induction d generalizing neg with
  | one => cases neg <;> rfl
  | node v t k e iht ihe =>
    unfold removeE removeSem
    split
    · rw [Edge.eval_mk', iht, ihe]
    · split
      · split
        · rw [Edge.eval_mk', ihe, constE_eval]
        · rw [Edge.eval_mk', iht, constE_eval]
      · rfl

theorem removeE_local (c : Edge → ℚ) (ls le : Nat) (heavy subset : Bool) :
    Local (fun v => ls ≤ v ∧ le < v) (removeE c ls le heavy subset) where
  one _ := rfl
  node v t k e neg := by
    rw [removeE]
    split
    · exact .inr (.inl ⟨_, _, rfl, .inr rfl, .inr rfl⟩)
    · split
      · split
        · exact .inr (.inl ⟨_, _, rfl, .inl (constE_const _), .inr rfl⟩)
        · exact .inr (.inl ⟨_, _, rfl, .inr rfl, .inl (constE_const _)⟩)
      · exact .inr (.inr (by omega))
  stop v t k e neg h := by
    unfold removeE
    rw [if_neg (by omega), if_neg (by omega)]

def roundE (c : Edge → ℚ) (ls : Nat) : DD → Bool → Edge
  | .one, neg => ⟨neg, .one⟩
  | .node v t k e, neg =>
    if v < ls then Edge.mk' v (roundE c ls t neg) (roundE c ls e (neg ^^ k))
    else constE (decide (c ⟨neg, .node v t k e⟩ > 1 / 2))

theorem roundE_eval (c : Edge → ℚ) (ls : Nat) (d : DD) (neg : Bool) (x : Asg) :
    (roundE c ls d neg).eval x = roundSem c ls d neg x := by
  induction d generalizing neg with
  | one => cases neg <;> rfl
  | node v t k e iht ihe =>
    unfold roundE roundSem
    split
    · rw [Edge.eval_mk', iht, ihe]
    · rw [constE_eval]

theorem roundE_local (c : Edge → ℚ) (ls : Nat) : Local (fun _ => False) (roundE c ls) where
  one _ := rfl
  node v t k e neg := by
    rw [roundE]
    split
    · exact .inr (.inl ⟨_, _, rfl, .inr rfl, .inr rfl⟩)
    · exact .inl (constE_const _)
  stop _ _ _ _ _ h := h.elim

def roundBestE (c : Edge → ℚ) (ls le : Nat) : DD → Bool → Edge
  | .one, neg => ⟨neg, .one⟩
  | .node v t k e, neg =>
    if v < ls then Edge.mk' v (roundBestE c ls le t neg) (roundBestE c ls le e (neg ^^ k))
    else if v ≤ le then
      let tc := c ⟨neg, t⟩
      let ec := c ⟨neg ^^ k, e⟩
      if tc < ec ∧ tc < 1 - ec then Edge.mk' v (constE false) (roundBestE c ls le e (neg ^^ k))
      else if ec < tc ∧ ec < 1 - tc then Edge.mk' v (roundBestE c ls le t neg) (constE false)
      else if tc > ec ∧ tc > 1 - ec then Edge.mk' v (constE true) (roundBestE c ls le e (neg ^^ k))
      else if ec > tc ∧ ec > 1 - tc then Edge.mk' v (roundBestE c ls le t neg) (constE true)
      else Edge.mk' v (constE (decide (tc > 1 / 2))) (constE (decide (ec > 1 / 2)))
    else ⟨neg, .node v t k e⟩

theorem roundBestE_eval (c : Edge → ℚ) (ls le : Nat) (d : DD) (neg : Bool) (x : Asg) :
    (roundBestE c ls le d neg).eval x = roundBestSem c ls le d neg x := by
  induction d generalizing neg with
  | one => cases neg <;> rfl
  | node v t k e iht ihe =>
    rw [roundBestE, roundBestSem]
    dsimp only
    repeat' split
    all_goals first | rfl | skip
    all_goals first
      | (exfalso; tauto)
      | simp only [Edge.eval_mk', constE_eval, iht, ihe]
    all_goals simp_all

theorem roundBestE_local (c : Edge → ℚ) (ls le : Nat) :
    Local (fun v => ls ≤ v ∧ le < v) (roundBestE c ls le) where
  one _ := rfl
  node v t k e neg := by
    rw [roundBestE]
    dsimp only
    by_cases h1 : v < ls
    · rw [if_pos h1]
      exact .inr (.inl ⟨_, _, rfl, .inr rfl, .inr rfl⟩)
    · rw [if_neg h1]
      by_cases h2 : v ≤ le
      · rw [if_pos h2]
        right; left
        repeat' split
        · exact ⟨_, _, rfl, .inl (constE_const _), .inr rfl⟩
        · exact ⟨_, _, rfl, .inr rfl, .inl (constE_const _)⟩
        · exact ⟨_, _, rfl, .inl (constE_const _), .inr rfl⟩
        · exact ⟨_, _, rfl, .inr rfl, .inl (constE_const _)⟩
        · exact ⟨_, _, rfl, .inl (constE_const _), .inl (constE_const _)⟩
      · exact .inr (.inr (by omega))
  stop v t k e neg h := by
    unfold roundBestE
    rw [if_neg (by omega), if_neg (by omega)]

/-- The handle of a function computed by a local map. -/
theorem Local.edge {S : Nat → Prop} {Φ : DD → Bool → Edge} (hΦ : Local S Φ) {b r : BDD m}
    (h : ∀ x, r.eval x = (Φ b.edge.n b.edge.neg).eval x) : r.edge = Φ b.edge.n b.edge.neg :=
  Edge.eq_of_eval r.wf (hΦ.wf b.edge.n b.wf b.edge.neg).1 h

/-- Each operator but the cofactors is a local map, the same for all functions. -/
theorem applyOperator_local (op : Operator) (h1 : op ≠ .positiveCofactor) (h2 : op ≠ .negativeCofactor)
    (ls le : Nat) : ∃ S Φ, Local S Φ ∧ (m.Mono → ∀ v w, m.lvl v < m.lvl w → S v → S w) ∧
      ∀ b r : BDD m, applyOperator b op ls le = .ok r → r.edge = Φ b.edge.n b.edge.neg := by
  have hup : m.Mono → ∀ v w, m.lvl v < m.lvl w → (ls ≤ v ∧ le < v) → ls ≤ w ∧ le < w := by
    intro hm v w hvw hv
    have : v < w := by
      by_contra hc
      rcases Nat.lt_or_eq_of_le (not_lt.mp hc) with h | h
      · exact absurd (hm w v h) (by omega)
      · subst h; omega
    omega
  have key : ∀ {S : Nat → Prop} {Φ : DD → Bool → Edge} (_ : Local S Φ) {b r r' : BDD m}
      {o : Except Fault (BDD m)} {F : Asg → Bool}, (o = .ok r' ∧ ∀ x, r'.eval x = F x) →
      (∀ x, (Φ b.edge.n b.edge.neg).eval x = F x) → o = .ok r → r.edge = Φ b.edge.n b.edge.neg := by
    intro S Φ hΦ b r r' o F h hF ho
    rw [h.1] at ho
    cases ho
    exact hΦ.edge (fun x => by rw [h.2, hF])
  have rem : ∀ heavy subset, ∃ S Φ, Local S Φ ∧ (m.Mono → ∀ v w, m.lvl v < m.lvl w → S v → S w) ∧
      ∀ b r : BDD m, roundAny b ls le heavy subset = .ok r → r.edge = Φ b.edge.n b.edge.neg := by
    intro heavy subset
    refine ⟨_, _, removeE_local Edge.frac ls le heavy subset, hup, fun b r h => ?_⟩
    obtain ⟨r', hr'⟩ := roundAny_spec b ls le heavy subset
    exact key (removeE_local _ _ _ _ _) hr' (removeE_eval _ _ _ _ _ _ _) h
  cases op with
  | positiveCofactor => exact absurd rfl h1
  | negativeCofactor => exact absurd rfl h2
  | subsetLight => exact rem false true
  | subsetHeavy => exact rem true true
  | supersetLight => exact rem false false
  | supersetHeavy => exact rem true false
  | roundBest =>
    refine ⟨_, _, roundBestE_local Edge.frac ls le, hup, fun b r h => ?_⟩
    obtain ⟨r', hr'⟩ := roundBest_spec b ls le
    exact key (roundBestE_local _ _ _) hr' (roundBestE_eval _ _ _ _ _) h
  | round =>
    refine ⟨_, _, roundE_local Edge.frac ls, fun _ _ _ _ h => h, fun b r h => ?_⟩
    obtain ⟨r', hr'⟩ := roundBdd_spec b ls
    exact key (roundE_local _ _) hr' (roundE_eval _ _ _ _) h

/-! ### Cofactors -/

def cofE (v : Nat) (val : Bool) : DD → Bool → Edge
  | .one, neg => ⟨neg, .one⟩
  | .node w t k e, neg =>
    if w = v then if val then ⟨neg, t⟩ else ⟨neg ^^ k, e⟩
    else Edge.mk' w (cofE v val t neg) (cofE v val e (neg ^^ k))

theorem mk'_not (v : Nat) (a b : Edge) : Edge.mk' v a.not b.not = (Edge.mk' v a b).not := by
  unfold Edge.mk'
  by_cases h : a = b
  · rw [if_pos h, if_pos (by rw [h])]
  · have h' : a.not ≠ b.not := by
      intro e
      apply h
      cases a; cases b
      simp only [Edge.not, Edge.mk.injEq, Bool.not_eq_eq_eq_not, Bool.not_not] at e
      rw [e.1, e.2]
    rw [if_neg h, if_neg h']
    cases a with | mk an ad =>
    cases b with | mk bn bd => cases an <;> cases bn <;> simp [Edge.not]

theorem cofE_not (v : Nat) (val : Bool) (d : DD) (neg : Bool) :
    cofE v val d (!neg) = (cofE v val d neg).not := by
  induction d generalizing neg with
  | one => rfl
  | node w t k e iht ihe =>
    unfold cofE
    split
    · split
      · rfl
      · simp [Edge.not]
    · rw [iht, show ((!neg) ^^ k) = !(neg ^^ k) by simp, ihe, mk'_not]

theorem cofE_n (v : Nat) (val : Bool) (d : DD) (neg : Bool) : (cofE v val d neg).n = (cofE v val d false).n := by
  cases neg with
  | false => rfl
  | true => rw [show true = !false from rfl, cofE_not]; rfl

theorem mk'_self {v : Nat} {t e : DD} {k neg : Bool} (h : ¬ (k = false ∧ t = e)) :
    Edge.mk' v ⟨neg, t⟩ ⟨neg ^^ k, e⟩ = ⟨neg, .node v t k e⟩ := by
  unfold Edge.mk'
  rw [if_neg (fun hc => h (by
    cases neg <;> cases k <;> simp_all))]
  cases neg <;> cases k <;> simp

theorem cofE_self {v : Nat} (val : Bool) {d : DD} (hd : d.WF m) (hv : v ∉ d.vars) (neg : Bool) :
    cofE v val d neg = ⟨neg, d⟩ := by
  induction d generalizing neg with
  | one => rfl
  | node w t k e iht ihe =>
    simp only [DD.vars, List.mem_cons, List.mem_append, not_or] at hv
    unfold cofE
    rw [if_neg (fun h => hv.1 h.symm), iht hd.1 hv.2.1, ihe hd.2.1 hv.2.2]
    exact mk'_self hd.2.2.2.2

/-- Not a node of variable `v`. -/
def NotVar (v : Nat) (u : DD) : Prop := ∀ t k e, u ≠ .node v t k e

theorem cofE_subs {v : Nat} (val : Bool) {d : DD} (hd : d.WF m) {u : DD}
    (hu : u ∈ (cofE v val d false).n.subs) :
    u = .one ∨ ∃ w ∈ d.subs, w ≠ .one ∧ NotVar v w ∧ u = (cofE v val w false).n := by
  induction d with
  | one => simp [cofE, DD.subs] at hu; exact .inl hu
  | node w t k e iht ihe =>
    have hsub : ∀ {d' : DD}, d'.WF m → v ∉ d'.vars → (∀ w' ∈ d'.subs, w' ∈ (DD.node w t k e).subs) →
        u ∈ d'.subs → u = .one ∨ ∃ w' ∈ (DD.node w t k e).subs, w' ≠ .one ∧ NotVar v w' ∧
          u = (cofE v val w' false).n := by
      intro d' hd' hv hs h
      by_cases h1 : u = .one
      · exact .inl h1
      · right
        have hvu : v ∉ u.vars := by
          obtain ⟨a, ha, rfl⟩ := subs_reach h false
          exact fun hc => hv (DD.reach_vars ha v hc)
        have hwu : u.WF m := by
          obtain ⟨a, ha, rfl⟩ := subs_reach h false
          exact DD.reach_wf hd' ha
        refine ⟨u, hs u h, h1, ?_, by rw [cofE_self val hwu hvu]⟩
        rintro t' k' e' rfl
        simp [DD.vars] at hvu
    unfold cofE at hu
    split at hu
    · rename_i hwv
      subst hwv
      split at hu
      · exact hsub hd.1 (DD.Below.notMem hd.1 hd.2.2.1) (fun w' h => by simp [DD.subs, h]) hu
      · exact hsub hd.2.1 (DD.Below.notMem hd.2.1 hd.2.2.2.1) (fun w' h => by simp [DD.subs, h]) hu
    · rename_i hwv
      rcases subs_mk' _ _ _ hu with hu | hu | hu
      · refine .inr ⟨.node w t k e, self_mem_subs _, by simp, ?_, ?_⟩
        · intro t' k' e' h
          cases h
          exact hwv rfl
        · rw [hu]
          conv_rhs => rw [cofE]
          rw [if_neg hwv]
      · rcases iht hd.1 hu with h | ⟨w', h1, h2⟩
        · exact .inl h
        · exact .inr ⟨w', by simp [DD.subs, h1], h2⟩
      · rw [cofE_n] at hu
        rcases ihe hd.2.1 hu with h | ⟨w', h1, h2⟩
        · exact .inl h
        · exact .inr ⟨w', by simp [DD.subs, h1], h2⟩

theorem cofE_wf {v : Nat} (val : Bool) {d : DD} (hd : d.WF m) (neg : Bool) :
    (cofE v val d neg).n.WF m ∧ ∀ l, d.Below m l → (cofE v val d neg).n.Below m l := by
  induction d generalizing neg with
  | one => exact ⟨trivial, fun _ _ => trivial⟩
  | node w t k e iht ihe =>
    obtain ⟨ht, he, htb, heb, hr⟩ := id hd
    unfold cofE
    split
    · split
      · exact ⟨ht, fun l hl => DD.Below.mono (le_of_lt hl) htb⟩
      · exact ⟨he, fun l hl => DD.Below.mono (le_of_lt hl) heb⟩
    · have h1 := iht ht neg
      have h2 := ihe he (neg ^^ k)
      exact ⟨Edge.wf_mk' h1.1 h2.1 (h1.2 _ htb) (h2.2 _ heb), fun l hl => Edge.below_mk' (h1.2 _ htb) hl⟩

theorem cofE_eval {v : Nat} (val : Bool) {d : DD} (hd : d.WF m) (neg : Bool) (x : Asg) :
    (cofE v val d neg).eval x = (neg ^^ d.eval (Function.update x v val)) := by
  induction d generalizing neg with
  | one => rfl
  | node w t k e iht ihe =>
    unfold cofE
    split
    · rename_i h
      subst h
      cases val
      · simp [Edge.eval, DD.eval, DD.Below.eval_update hd.2.1 hd.2.2.2.1]
      · simp [Edge.eval, DD.eval, DD.Below.eval_update hd.1 hd.2.2.1]
    · rename_i h
      rw [Edge.eval_mk', iht hd.1, ihe hd.2.1]
      simp only [DD.eval, Function.update_of_ne h]
      cases x w <;> simp

theorem cofactor_edge (b : BDD m) (v : Nat) (val : Bool) :
    (cofactor b v val).edge = cofE v val b.edge.n b.edge.neg := by
  apply Edge.eq_of_eval (cofactor b v val).wf (cofE_wf val b.wf b.edge.neg).1
  intro x
  rw [cofE_eval val b.wf]
  exact cofactor_eval b v val x

/-- Cofactors lose all nodes of the variable and gain none. -/
theorem cofactor_nodeCount {f : List (BDD m)} (hf : f ≠ []) (v : Nat) (val : Bool) :
    ∃ D : Finset DD, D ⊆ inner f ∧ (∀ u ∈ inner f, u ∉ D → ∃ t k e, u = .node v t k e) ∧
      (∀ u ∈ D, NotVar v u) ∧ nodeCount (f.map (fun b => cofactor b v val)) ≤ D.card + 1 := by
  classical
  refine ⟨(inner f).filter (NotVar v), Finset.filter_subset _ _, ?_, ?_, ?_⟩
  · intro u hu hn
    rw [Finset.mem_filter, not_and] at hn
    have := hn hu
    unfold NotVar at this
    push Not at this
    exact this
  · intro u hu
    exact (Finset.mem_filter.mp hu).2
  · rw [nodeCount_eq (by simpa using hf)]
    have hsub : inner (f.map (fun b => cofactor b v val)) ⊆
        ((inner f).filter (NotVar v)).image (fun w => (cofE v val w false).n) := by
      intro u hu
      obtain ⟨h1, r, hr, hu⟩ := mem_inner.mp hu
      obtain ⟨b, hb, rfl⟩ := List.mem_map.mp hr
      rw [cofactor_edge, cofE_n] at hu
      rcases cofE_subs val b.wf hu with h | ⟨w, w1, w2, w3, rfl⟩
      · exact absurd h h1
      · exact Finset.mem_image_of_mem _ (Finset.mem_filter.mpr ⟨mem_inner.mpr ⟨w2, b, hb, w1⟩, w3⟩)
    have h1 := Finset.card_le_card hsub
    have h2 : (((inner f).filter (NotVar v)).image (fun w => (cofE v val w false).n)).card ≤ _ :=
      Finset.card_image_le
    omega

theorem applyOperatorAll_cofactor (f r : List (BDD m)) (j k : Nat)
    (h : applyOperatorAll .positiveCofactor j k f = .ok r ∨
      applyOperatorAll .negativeCofactor j k f = .ok r) :
    ∃ val, r = f.map (fun b => cofactor b j val) := by
  have hs : ∀ (op : Operator) (val : Bool), (∀ b : BDD m, applyOperator b op j k = .ok (cofactor b j val)) →
      applyOperatorAll op j k f = .ok r → r = f.map (fun b => cofactor b j val) := by
    clear h
    intro op val ho h
    obtain ⟨g, hg, hfg⟩ := applyOperatorAll_spec op j k f
    rw [h] at hg
    cases hg
    clear h
    induction hfg with
    | nil => rfl
    | cons hb _ ih =>
      rw [ho] at hb
      cases hb
      rw [ih]
      rfl
  rcases h with h | h
  · exact ⟨true, hs _ true (fun _ => rfl) h⟩
  · exact ⟨false, hs _ false (fun _ => rfl) h⟩

theorem applyOperatorAll_cases (op : Operator) (j k : Nat) (f r : List (BDD m))
    (h : applyOperatorAll op j k f = .ok r) :
    (applyOperatorAll .positiveCofactor j k f = .ok r ∨ applyOperatorAll .negativeCofactor j k f = .ok r) ∨
    ∃ S Φ, Local S Φ ∧ (m.Mono → ∀ v w, m.lvl v < m.lvl w → S v → S w) ∧
      List.Forall₂ (fun b r : BDD m => r.edge = Φ b.edge.n b.edge.neg) f r := by
  by_cases h1 : op = .positiveCofactor
  · subst h1; exact .inl (.inl h)
  by_cases h2 : op = .negativeCofactor
  · subst h2; exact .inl (.inr h)
  obtain ⟨S, Φ, hΦ, hS, hr⟩ := applyOperator_local (m := m) op h1 h2 j k
  obtain ⟨g, hg, hfg⟩ := applyOperatorAll_spec op j k f
  rw [h] at hg
  cases hg
  exact .inr ⟨S, Φ, hΦ, hS, hfg.imp (fun b b' hb => hr b b' hb)⟩

theorem subs_of_var {d : DD} {v : Nat} (h : v ∈ d.vars) : ∃ t c e, DD.node v t c e ∈ d.subs := by
  induction d with
  | one => simp [DD.vars] at h
  | node w t c e iht ihe =>
    simp only [DD.vars, List.mem_cons, List.mem_append] at h
    rcases h with rfl | h | h
    · exact ⟨t, c, e, self_mem_subs _⟩
    · obtain ⟨t', c', e', h⟩ := iht h
      exact ⟨t', c', e', by simp [DD.subs, h]⟩
    · obtain ⟨t', c', e', h⟩ := ihe h
      exact ⟨t', c', e', by simp [DD.subs, h]⟩

end Verif

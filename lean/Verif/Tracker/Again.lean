import Verif.Tracker.Local

/-!
# C116: two executions of one program

What the allocator, the scheduler and the priority queue decide does not show in the results.
-/

namespace Verif.Tracker

open Verif.Cluster (Cl)
open Verif.Murty (Node PickOk)

variable {P R O : Type}

/-- What a target says about the world: existence probability, density and last action. -/
def core (t : Tgt P) : ℝ × P × Char := (t.r, t.pdf, t.la)

/-- What is at an address. -/
def coreAt (h : Nat → Option (Tgt P)) (a : Nat) : Option (ℝ × P × Char) := (h a).map core

/-- The targets of two states, as collections. -/
def Same (s s' : St P) : Prop := (s.targets.map (coreAt s.heap)).Perm (s'.targets.map (coreAt s'.heap))

/-- Collections that agree can be matched by a renaming. -/
theorem match_lists {β : Type} (f g : Nat → β) : ∀ (l l' : List Nat), l.Nodup → l'.Nodup → (l.map f).Perm (l'.map g) →
    ∃ α : Equiv.Perm ℕ, (∀ a ∈ l, g (α a) = f a) ∧ (l.map α).Perm l'
  | [], l', _, _, hp => by
    have : l' = [] := by
      rw [← List.map_eq_nil_iff (f := g)]
      exact hp.symm.eq_nil
    subst this
    exact ⟨Equiv.refl _, fun a h => absurd h (by simp), List.Perm.refl _⟩
  | a :: l, l', hn, hn', hp => by
    obtain ⟨h1, h2⟩ := List.nodup_cons.1 hn
    have hm : f a ∈ l'.map g := hp.mem_iff.1 (by simp)
    obtain ⟨b, hb, hgb⟩ := List.mem_map.1 hm
    have hl : l'.Perm (b :: l'.erase b) := List.perm_cons_erase hb
    have hp2 : (l.map f).Perm ((l'.erase b).map g) := by
      have := hp.trans (hl.map g)
      rw [List.map_cons, List.map_cons, hgb] at this
      exact this.cons_inv
    obtain ⟨α, k1, k2⟩ := match_lists f g l (l'.erase b) h2 (hn'.erase b) hp2
    have key : ∀ x ∈ l, Equiv.swap (α a) b (α x) = α x := by
      intro x hx
      refine Equiv.swap_apply_of_ne_of_ne ?_ ?_
      · intro h
        exact h1 (α.injective h ▸ hx)
      · rintro rfl
        have : α x ∈ l'.erase (α x) := k2.mem_iff.1 (List.mem_map_of_mem hx)
        exact hn'.not_mem_erase this
    refine ⟨α.trans (Equiv.swap (α a) b), ?_, ?_⟩
    · intro x hx
      rcases List.mem_cons.1 hx with rfl | hx
      · simp [hgb]
      · rw [Equiv.trans_apply, key x hx]
        exact k1 x hx
    · have e : l.map (α.trans (Equiv.swap (α a) b)) = l.map α :=
        List.map_congr_left fun x hx => by rw [Equiv.trans_apply, key x hx]
      rw [List.map_cons, e]
      simp only [Equiv.trans_apply, Equiv.swap_apply_left]
      exact (k2.cons b).trans hl.symm

/-- The renaming between two states. -/
theorem Same.rename {E : Env P R O} {s s' : St P} (hs : Inv E s) (hs' : Inv E s') (h : Same s s') :
    ∃ α : Equiv.Perm ℕ, (∀ a, coreAt s'.heap (α a) = coreAt s.heap a) ∧ (s.targets.map α).Perm s'.targets := by
  obtain ⟨α, h1, h2⟩ := match_lists _ _ _ _ hs.ok.nodup hs'.ok.nodup h
  refine ⟨α, fun a => ?_, h2⟩
  by_cases ha : a ∈ s.targets
  · exact h1 a ha
  · have e1 : s.heap a = none := by
      cases e : s.heap a with
      | none => rfl
      | some t => exact absurd ((hs.ok.live a).1 ⟨t, e⟩) ha
    have e2 : s'.heap (α a) = none := by
      cases e : s'.heap (α a) with
      | none => rfl
      | some t =>
        have := h2.mem_iff.2 ((hs'.ok.live _).1 ⟨t, e⟩)
        rw [List.mem_map_of_injective α.injective] at this
        exact absurd this ha
    simp only [coreAt, e1, e2]

theorem core_peer {h h' : Nat → Option (Tgt P)} {a b : Nat} (e : coreAt h' b = coreAt h a) {t : Tgt P} (ht : h a = some t) :
    ∃ t', h' b = some t' ∧ Peer t t' := by
  unfold coreAt at e
  rw [ht] at e
  cases e' : h' b with
  | none => rw [e'] at e; cases e
  | some t' =>
    rw [e'] at e
    simp only [Option.map_some, Option.some.injEq, core, Prod.mk.injEq] at e
    exact ⟨t', rfl, e.1, e.2.1, e.2.2⟩

theorem viable_core {E : Env P R O} {prm : Params} {t t' : Tgt P} (h : core t' = core t) :
    viable E prm t' = viable E prm t := by
  simp only [core, Prod.mk.injEq] at h
  unfold viable
  rw [h.1, h.2.1]

/-! ## Prediction -/

theorem predict_same {E : Env P R O} (hbox : BoxOk E) {prm : Params} {m : Motion P} {ord ord' : List Nat → List Nat}
    (hord : ∀ l, (ord l).Perm l) (hord' : ∀ l, (ord' l).Perm l) {s s' t t' : St P} (hs : Inv E s) (hs' : Inv E s')
    (h : Same s s') (e : predict E prm m ord s = some t) (e' : predict E prm m ord' s' = some t') : Same t t' := by
  obtain ⟨α, k1, k2⟩ := h.rename hs hs'
  obtain ⟨u, p1, _, _, p4, p5⟩ := predict_spec hbox prm m hord hs.ok
  rw [e] at p1
  obtain rfl := Option.some.inj p1
  obtain ⟨u', q1, _, _, q4, q5⟩ := predict_spec hbox prm m hord' hs'.ok
  rw [e'] at q1
  obtain rfl := Option.some.inj q1
  have key : ∀ a, coreAt t'.heap (α a) = coreAt t.heap a := by
    intro a
    unfold coreAt
    rw [p4, q4]
    cases e : s.heap a with
    | none =>
      have := k1 a
      unfold coreAt at this
      rw [e, Option.map_none, Option.map_eq_none_iff] at this
      rw [this]
    | some x =>
      obtain ⟨x', g1, g2, g3, g4⟩ := core_peer (k1 a) e
      rw [g1]
      have hc : core (predictTgt E m x') = core (predictTgt E m x) := by
        simp only [core, predictTgt, g2, g3]
      simp only [Option.map_some, Option.filter_some, viable_core hc]
      split
      · simp only [Option.map_some, hc]
      · rfl
  unfold Same
  rw [p5, q5]
  refine List.Perm.trans ?_ ((k2.filter _).map _)
  rw [List.filter_map, List.map_map]
  have hf : ((fun a => (t'.heap a).isSome) ∘ α) = fun a => (t.heap a).isSome := by
    funext a
    have := congrArg Option.isSome (key a)
    simpa [coreAt] using this
  rw [hf]
  exact List.Perm.of_eq (List.map_congr_left fun a _ => (key a).symm)

/-! ## Correction -/

/-- What the parallel loop leaves of a target that the scan reaches. -/
theorem Done.final {E : Env P R O} (hbox : BoxOk E) {S : Sensor P R} {prm : Params} {ch : Choices} {fuel : Nat}
    {scan : List (Rep R)} {dflt : Rep R} (hok : CallOk E (.correct S ch scan dflt)) {s s2 s1 : St P} (hs : Inv E s)
    {reps : Nat → Rep R} {cls : List Cl} {rcid : Nat → Nat} {new : List Nat}
    (h3 : Done E S prm ch fuel scan dflt s s2 reps cls s1 rcid new) {a : Nat} (hg : Gated E S scan s a) :
    ∃ (c : Cl) (v : Comp P R) (k : Nat) (u : Tgt P), c ∈ cls ∧ c.targets[k]? = some a ∧
      compOf E S prm ch.pick fuel ch.wt s1.heap (initReps scan rcid dflt) c = some v ∧ v.ts[k]? = some u ∧
      finalHeap E S prm ch.pick fuel ch.wt s1.heap (initReps scan rcid dflt) cls a =
        (some u).filter (viable E prm) := by
  obtain ⟨hf, hch, hz⟩ := hok
  obtain ⟨cls', s1', rcid', p1, p2, p3, p4, p5, p6, p7, p8, p9, p10⟩ := prepare_ok hbox hf hz hs.ok
  rw [h3.prep, Option.some.injEq, Prod.mk.injEq, Prod.mk.injEq] at p1
  obtain ⟨rfl, rfl, rfl⟩ := p1
  have hany : (cls.any fun c => c.targets.contains a) = true := by
    obtain ⟨c, hc, hac⟩ := (p7 a).2 hg
    rw [List.any_eq_true]
    exact ⟨c, hc, by simpa using hac⟩
  obtain ⟨c, hcm, hac⟩ := (p7 a).2 hg
  obtain ⟨i, hi⟩ := List.mem_iff_getElem?.1 hcm
  obtain ⟨v, hcv⟩ := h3.comps c hcm
  obtain ⟨l1, _, _, l4⟩ := compOf_length hcv
  obtain ⟨k, u, k1, k2, k3⟩ := writeAll_mem (h := s1.heap)
    ((List.nodup_flatMap.1 p2.tnd).1 c hcm) l1 hac
  refine ⟨c, v, k, u, hcm, k1, hcv, k2, ?_⟩
  rw [finalHeap, if_pos hany]
  unfold midHeap
  rw [(find_targets p2.tnd hi hac).1]
  simp only [hcv]
  rw [k3]

/-- What the parallel loop leaves of other targets. -/
theorem Done.final_out {E : Env P R O} (hbox : BoxOk E) {S : Sensor P R} {prm : Params} {ch : Choices} {fuel : Nat}
    {scan : List (Rep R)} {dflt : Rep R} (hok : CallOk E (.correct S ch scan dflt)) {s s2 s1 : St P} (hs : Inv E s)
    {reps : Nat → Rep R} {cls : List Cl} {rcid : Nat → Nat} {new : List Nat}
    (h3 : Done E S prm ch fuel scan dflt s s2 reps cls s1 rcid new) {a : Nat} (hg : ¬ Gated E S scan s a) :
    finalHeap E S prm ch.pick fuel ch.wt s1.heap (initReps scan rcid dflt) cls a = s.heap a := by
  obtain ⟨hf, hch, hz⟩ := hok
  obtain ⟨cls', s1', rcid', p1, p2, p3, p4, p5, p6, p7, p8, p9, p10⟩ := prepare_ok hbox hf hz hs.ok
  rw [h3.prep, Option.some.injEq, Prod.mk.injEq, Prod.mk.injEq] at p1
  obtain ⟨rfl, rfl, rfl⟩ := p1
  have hany : ¬ (cls.any fun c => c.targets.contains a) = true := by
    rw [List.any_eq_true]
    rintro ⟨c, hc, hac⟩
    exact hg ((p7 a).1 ⟨c, hc, by simpa using hac⟩)
  rw [finalHeap, if_neg hany, p8 a hg]

/-- A target started, without its name. -/
theorem Done.news_core {E : Env P R O} {S : Sensor P R} {prm : Params} {ch : Choices} {fuel : Nat}
    {scan : List (Rep R)} {dflt : Rep R} {s s2 s1 : St P} {reps : Nat → Rep R} {cls : List Cl}
    {rcid : Nat → Nat} {new : List Nat} (h : Done E S prm ch fuel scan dflt s s2 reps cls s1 rcid new) :
    new.map (coreAt s2.heap) = (births S prm ch.ord cls scan.length reps).map fun p =>
        some (min p.2 prm.rBmax, S.init (reps p.1).val, 'i') := by
  apply List.ext_getElem
  · simp [h.len]
  · intro k g1 g2
    rw [List.length_map] at g1 g2
    have hb := h.born k new[k] (births S prm ch.ord cls scan.length reps)[k].1
      (births S prm ch.ord cls scan.length reps)[k].2 (List.getElem?_eq_getElem g1) (List.getElem?_eq_getElem g2)
    simp only [List.getElem_map, coreAt, hb, Option.map_some, core]

/-- The terms give the same density in every order. -/
def Firm (E : Env P R O) (p : P) (l : List (ℝ × P)) : Prop := ∀ l', l.Perm l' → (∀ y ∈ l, 0 ≤ y.1) →
  E.toGlobal (E.join p (l.map Prod.fst) (l.map Prod.snd)) = E.toGlobal (E.join p (l'.map Prod.fst) (l'.map Prod.snd))

theorem Like.core {E : Env P R O} {Q : P → List (ℝ × P) → Prop} (hj : ∀ p l, Q p l → Firm E p l) {u u' : Tgt P}
    (h : Like E Q u u') : core u' = core u := by
  obtain ⟨h1, h2, h3⟩ := h
  have : u'.pdf = u.pdf := by
    rcases h3 with h3 | ⟨p, l, l', k0, k1, k2, k3, k4⟩
    · exact h3
    · rw [k3, k4, hj p l k0 l' k1 k2]
  simp only [Tracker.core, h1, h2, this]

/-- The costs settle what is drawn when the scan is processed in state `s`, and the order of the terms does not
matter for what is joined. -/
def Clear (E : Env P R O) (prm : Params) (s : St P) : Call P R → Prop
  | .predict _ _ => True
  | .correct S ch scan dflt => (∀ cls s1 rcid, prepare E S scan s = some (cls, s1, rcid) → ∀ c ∈ cls,
      SettledIn E S prm ch.wt s1.heap (initReps scan rcid dflt) c) ∧
    ∀ a p l, Joined E S prm ch scan dflt s a p l → Firm E p l

/-- A scan reaches the same targets. -/
theorem reach_same {E : Env P R O} {S : Sensor P R} {scan scan' : List (Rep R)} {s₁ s₂ : St P} {α π : Equiv.Perm ℕ}
    (k1 : ∀ a, coreAt s₂.heap (α a) = coreAt s₁.heap a) (hπ : ∀ j, scan'[π j]? = scan[j]?) :
    (∀ a j, Hits E scan' s₂ (α a) (π j) ↔ Hits E scan s₁ a j) ∧
      ∀ a, Gated E S scan' s₂ (α a) ↔ Gated E S scan s₁ a := by
  have hit : ∀ a j, Hits E scan' s₂ (α a) (π j) ↔ Hits E scan s₁ a j := by
    intro a j
    unfold Hits
    rw [hπ]
    constructor
    · rintro ⟨t, z, h1, h2, h3⟩
      obtain ⟨t', g1, _, g3, _⟩ := core_peer (k1 a).symm h1
      exact ⟨t', z, g1, h2, by rw [g3]; exact h3⟩
    · rintro ⟨t, z, h1, h2, h3⟩
      obtain ⟨t', g1, _, g3, _⟩ := core_peer (k1 a) h1
      exact ⟨t', z, g1, h2, by rw [g3]; exact h3⟩
  have gat : ∀ a, Gated E S scan' s₂ (α a) ↔ Gated E S scan s₁ a := by
    intro a
    unfold Gated
    simp only [perm_mem hπ]
    constructor
    · rintro ⟨t, h1, h3⟩
      obtain ⟨t', g1, _, g3, _⟩ := core_peer (k1 a).symm h1
      exact ⟨t', g1, by rw [g3]; exact h3⟩
    · rintro ⟨t, h1, h3⟩
      obtain ⟨t', g1, _, g3, _⟩ := core_peer (k1 a) h1
      exact ⟨t', g1, by rw [g3]; exact h3⟩
  exact ⟨hit, gat⟩

/-- A scan, in two states with the same targets. -/
theorem correct_same {E : Env P R O} (hbox : BoxOk E)
    (hcen : ∀ l l' : List O, l.Perm l' → E.center l = E.center l') {prm : Params} {fuel fuel' : Nat}
    {s₁ s₂ : St P} (hs : Inv E s₁) (hs2 : Inv E s₂) (h : Same s₁ s₂) {S : Sensor P R} (hS : CostsOk S)
    (hblind : ∀ α, SensAlike α S S) {ch ch' : Choices}
    (hwt : ch'.wt = ch.wt) (hw0 : ∀ q, 0 ≤ ch.wt q) (hp : ∀ r c, PickOk (ch.pick r c))
    (hp' : ∀ r c, PickOk (ch'.pick r c)) {scan scan' : List (Rep R)} {dflt dflt' : Rep R}
    (hok : CallOk E (.correct S ch scan dflt)) (hok' : CallOk E (.correct S ch' scan' dflt'))
    {π : Equiv.Perm ℕ} (hπ : ∀ j, scan'[π j]? = scan[j]?) {s' s'' : St P} {reps reps' : Nat → Rep R}
    (e1 : correct E S prm ch fuel scan dflt s₁ = some (s', reps))
    (e2 : correct E S prm ch' fuel' scan' dflt' s₂ = some (s'', reps'))
    (hclear : Clear E prm s₁ (.correct S ch scan dflt)) :
    Same s' s'' ∧ ∀ j < scan.length, (reps' (π j)).rB = (reps j).rB ∧ (reps' (π j)).val = (reps j).val := by
  obtain ⟨hset, hfirm⟩ := hclear
  obtain ⟨α, k1, k2⟩ := h.rename hs hs2
  have k1' : ∀ b, coreAt s₁.heap (α.symm b) = coreAt s₂.heap b := fun b => by
    rw [← k1, Equiv.apply_symm_apply]
  have e1 := correct_mono (le_max_left fuel fuel') e1
  have e2 := correct_mono (le_max_right fuel fuel') e2
  generalize max fuel fuel' = K at e1 e2
  have hf := hok.1
  have hz := hok.2.2
  have hz' := hok'.2.2
  obtain ⟨cls, s1, rcid, new, d1, n1, n2, _⟩ := correct_origin hbox hf hok.2.1 hz hs e1
  obtain ⟨cls', s1', rcid', new', d2, n1', n2', _⟩ := correct_origin hbox hf hok'.2.1 hz' hs2 e2
  obtain ⟨_, _, _, p1, p2, _, _, _, p6, p7, _, p9, p10⟩ := prepare_ok hbox hf hz hs.ok
  rw [d1.prep, Option.some.injEq, Prod.mk.injEq, Prod.mk.injEq] at p1
  obtain ⟨rfl, rfl, rfl⟩ := p1
  obtain ⟨_, _, _, q1, q2, _, _, _, q6, q7, _, q9, q10⟩ := prepare_ok hbox hf hz' hs2.ok
  rw [d2.prep, Option.some.injEq, Prod.mk.injEq, Prod.mk.injEq] at q1
  obtain ⟨rfl, rfl, rfl⟩ := q1
  obtain ⟨hit, gat⟩ := reach_same k1 hπ (E := E) (S := S)
  have hheap : ∀ c ∈ cls, ∀ a ∈ c.targets, ∀ t t', s1.heap a = some t → s1'.heap (α a) = some t' → Peer t t' := by
    intro c hcm a hac t t' h1 h2
    obtain ⟨t0, g1, g2, g3, g4, g5⟩ := p10 a t h1
    obtain ⟨t0', m1, m2, m3, m4, m5⟩ := q10 (α a) t' h2
    obtain ⟨t1, r1, r2, r3, r4⟩ := core_peer (k1 a) g1
    rw [r1] at m1
    obtain rfl := Option.some.inj m1
    exact ⟨m3.trans (r2.trans g3.symm), m4.trans (r3.trans g4.symm), m5.trans (r4.trans g5.symm)⟩
  have hval : ∀ c ∈ cls, ∀ j ∈ c.reports, (initReps scan' rcid' dflt' (π j)).val = (initReps scan rcid dflt j).val := by
    intro c hcm j hj
    have hlt := List.mem_range.1 (p6.mem_iff.1 (List.mem_flatMap.2 ⟨c, hcm, hj⟩))
    simp only [initReps, List.getD_eq_getElem?_getD, hπ, List.getElem?_eq_getElem hlt, Option.getD_some]
  have hA : ∀ j < scan.length, (reps' (π j)).rB = (reps j).rB ∧ (reps' (π j)).val = (reps j).val := by
    intro j hj
    obtain ⟨k, c, v, hcm, hk, hv, hb, hr⟩ := d1.report p2 p6 hj
    obtain ⟨k', c', v', hcm', hk', hv', hb', hr'⟩ := d2.report q2 q6 ((perm_lt hπ j).2 hj)
    obtain ⟨g1, g2, g3, g4⟩ := cluster_order hbox hf hf hπ hz hs.ok hs2.ok hit gat d1.prep d2.prep hcm hcm'
      (Or.inr ⟨j, List.mem_of_getElem? hk, List.mem_of_getElem? hk'⟩)
    rw [hwt] at hv'
    by_cases hne : c.targets = []
    · obtain ⟨m1, m2⟩ := compOf_order_free hcen π.injective hne
        (by rw [hne, List.map_nil] at g1; exact g1.symm.eq_nil) g3 g4 (hval c hcm) hv hv' k k' j hk hk'
      rw [hb, hb'] at m2
      rw [hr, hr'] at m1
      exact ⟨Option.some.inj m2, Option.some.inj m1⟩
    · obtain ⟨_, m1, m2⟩ := compOf_order hcen hS α.injective (hblind α) hp hp' π.injective hne g1 g2 g3 g4
        (hheap c hcm) (hval c hcm) hw0 hv hv'
      have m1 := m1 k k' j hk hk'
      have m2 := (m2 (hset cls s1 rcid d1.prep c hcm)).1 k k' j hk hk'
      rw [hb, hb'] at m2
      rw [hr, hr'] at m1
      exact ⟨Option.some.inj m2, Option.some.inj m1⟩
  have hfin : ∀ a, coreAt (finalHeap E S prm ch'.pick K ch'.wt s1'.heap (initReps scan' rcid' dflt') cls') (α a) =
      coreAt (finalHeap E S prm ch.pick K ch.wt s1.heap (initReps scan rcid dflt) cls) a := by
    intro a
    by_cases hg : Gated E S scan s₁ a
    · obtain ⟨c, v, k, u, hcm, hk, hv, hu, hfu⟩ := d1.final hbox hok hs hg
      obtain ⟨c', v', k', u', hcm', hk', hv', hu', hfu'⟩ := d2.final hbox hok' hs2 ((gat a).2 hg)
      have hac := List.mem_of_getElem? hk
      obtain ⟨g1, g2, g3, g4⟩ := cluster_order hbox hf hf hπ hz hs.ok hs2.ok hit gat d1.prep d2.prep hcm hcm'
        (Or.inl ⟨a, hac, List.mem_of_getElem? hk'⟩)
      rw [hwt] at hv'
      obtain ⟨_, _, m2⟩ := compOf_order hcen hS α.injective (hblind α) hp hp' π.injective (List.ne_nil_of_mem hac)
        g1 g2 g3 g4 (hheap c hcm) (hval c hcm) hw0 hv hv'
      obtain ⟨w, w', m3, m4, m5⟩ := (m2 (hset cls s1 rcid d1.prep c hcm)).2 k k' a hk hk'
      rw [hu] at m3
      rw [hu'] at m4
      obtain rfl := Option.some.inj m3
      obtain rfl := Option.some.inj m4
      have m6 := m5.core fun p l h => hfirm a p l ⟨_, _, _, c, k, d1.prep, hcm, hk, h⟩
      unfold coreAt
      rw [hfu, hfu']
      simp only [Option.filter_some, viable_core (m6)]
      split
      · simp only [Option.map_some, m6]
      · rfl
    · unfold coreAt
      rw [d1.final_out hbox hok hs hg, d2.final_out hbox hok' hs2 (mt (gat a).1 hg)]
      exact k1 a
  refine ⟨?_, hA⟩
  have old : ∀ {s s2 s1 : St P} {ch : Choices} {scan : List (Rep R)} {dflt : Rep R} {reps : Nat → Rep R} {cls : List Cl}
      {rcid : Nat → Nat} {new : List Nat}, Done E S prm ch K scan dflt s s2 reps cls s1 rcid new →
      s2.targets.map (coreAt s2.heap) = ((s.targets.filter fun a =>
        (finalHeap E S prm ch.pick K ch.wt s1.heap (initReps scan rcid dflt) cls a).isSome).map
          (coreAt (finalHeap E S prm ch.pick K ch.wt s1.heap (initReps scan rcid dflt) cls))) ++
        new.map (coreAt s2.heap) := by
    intro s s2 s1 ch scan dflt reps cls rcid new d
    rw [d.targets, List.map_append]
    congr 1
    apply List.map_congr_left
    intro a ha
    have hsome := (List.mem_filter.1 ha).2
    unfold coreAt
    rw [d.old a]
    intro hn
    rw [d.fresh a hn] at hsome
    cases hsome
  unfold Same
  rw [old d1, old d2]
  refine List.Perm.append ?_ ?_
  · refine List.Perm.trans ?_ ((k2.filter _).map _)
    rw [List.filter_map, List.map_map]
    have hff : ((fun a => (finalHeap E S prm ch'.pick K ch'.wt s1'.heap (initReps scan' rcid' dflt') cls' a).isSome) ∘ α) =
        fun a => (finalHeap E S prm ch.pick K ch.wt s1.heap (initReps scan rcid dflt) cls a).isSome := by
      funext a
      have := congrArg Option.isSome (hfin a)
      simpa [coreAt] using this
    rw [hff]
    exact List.Perm.of_eq (List.map_congr_left fun a _ => (hfin a).symm)
  · rw [d1.news_core, d2.news_core]
    refine List.Perm.trans ?_ ((births_order hok.2.1.ord hok'.2.1.ord hπ p6 q6 fun j hj => (hA j hj).1).map _)
    rw [List.map_map]
    apply List.Perm.of_eq
    apply List.map_congr_left
    rintro ⟨j, x⟩ hm
    simp only [Function.comp_apply, (hA j (births_mem hok.2.1.ord p6 hm).1).2]

/-- A scan that is processed in one state is processed in the other. -/
theorem correct_same_defined {E : Env P R O} (hbox : BoxOk E) {prm : Params} {fuel : Nat}
    {s₁ s₂ : St P} (hs : Inv E s₁) (hs2 : Inv E s₂) (h : Same s₁ s₂) {S : Sensor P R} (hS : CostsOk S)
    {ch ch' : Choices} (hp : ∀ r c, PickOk (ch.pick r c)) (hp' : ∀ r c, PickOk (ch'.pick r c)) {scan scan' : List (Rep R)}
    {dflt dflt' : Rep R} (hok : CallOk E (.correct S ch scan dflt)) (hok' : CallOk E (.correct S ch' scan' dflt'))
    {π : Equiv.Perm ℕ} (hπ : ∀ j, scan'[π j]? = scan[j]?) {s' : St P} {reps : Nat → Rep R}
    (e1 : correct E S prm ch fuel scan dflt s₁ = some (s', reps)) :
    ∃ F res, ∀ fuel', F ≤ fuel' → correct E S prm ch' fuel' scan' dflt' s₂ = some res := by
  obtain ⟨α, k1, k2⟩ := h.rename hs hs2
  obtain ⟨cls, s1, rcid, new, d1, _⟩ := correct_origin hbox hok.1 hok.2.1 hok.2.2 hs e1
  obtain ⟨_, _, _, p1, p2, _, _, _, p6, p7, _⟩ := prepare_ok hbox hok.1 hok.2.2 hs.ok
  rw [d1.prep, Option.some.injEq, Prod.mk.injEq, Prod.mk.injEq] at p1
  obtain ⟨rfl, rfl, rfl⟩ := p1
  obtain ⟨hit, gat⟩ := reach_same k1 hπ (E := E) (S := S)
  refine correct_total hbox hok'.1 hS prm hok'.2.1 hp' hok'.2.2 dflt' hs2 ?_
  intro cls' s1' rcid' hprep c' hc'
  obtain ⟨_, _, _, q1, q2, _, _, _, q6, q7, _⟩ := prepare_ok hbox hok'.1 hok'.2.2 hs2.ok
  rw [hprep, Option.some.injEq, Prod.mk.injEq, Prod.mk.injEq] at q1
  obtain ⟨rfl, rfl, rfl⟩ := q1
  rcases hct : c'.targets with _ | ⟨b, l⟩
  · simp
  have hb : b ∈ c'.targets := by rw [hct]; exact List.mem_cons_self
  rw [← hct]
  obtain ⟨a, rfl⟩ := α.surjective b
  obtain ⟨c, hcm, hac⟩ := (p7 a).2 ((gat a).1 ((q7 _).1 ⟨c', hc', hb⟩))
  obtain ⟨g1, _⟩ := cluster_order hbox hok.1 hok.1 hπ hok.2.2 hs.ok hs2.ok hit gat d1.prep hprep hcm hc'
    (Or.inl ⟨a, hac, hb⟩)
  rw [← g1.length_eq, List.length_map]
  by_contra hl
  obtain ⟨v, hv⟩ := d1.comps c hcm
  rw [compOf_limit hS prm hp fuel ch.wt _ _ (by omega)] at hv
  cases hv

/-! ## Programs -/

/-- The same call once more: another order of the reports, another schedule, other addresses for what is started,
other choices among equals in the queue, another order of the targets in the loop of `predict`. -/
inductive Again : Call P R → Call P R → Prop
  | predict (m : Motion P) (ord ord' : List Nat → List Nat) : Again (.predict m ord) (.predict m ord')
  | correct (S : Sensor P R) (ch ch' : Choices) (scan scan' : List (Rep R)) (dflt dflt' : Rep R) (wt : ch'.wt = ch.wt)
      (perm : scan.Perm scan') : Again (.correct S ch scan dflt) (.correct S ch' scan' dflt')

/-- The sensor does not look at addresses; weights are not negative. -/
def Plain : Call P R → Prop
  | .predict _ _ => True
  | .correct S ch _ _ => (∀ a b, S.upd a = S.upd b ∧ S.detCost a = S.detCost b ∧ S.missPdf a = S.missPdf b ∧
      S.missCost a = S.missCost b) ∧ ∀ q, 0 ≤ ch.wt q

/-- Every call of the history is clear when it is made. -/
def AllClear (E : Env P R O) (prm : Params) (fuel : Nat) : List (Call P R) → St P → Prop
  | [], _ => True
  | c :: l, s => Clear E prm s c ∧ ∀ s', step E prm fuel s c = some s' → AllClear E prm fuel l s'

theorem perm_scan {A : Type} {l l' : List A} (h : l.Perm l') : ∃ π : Equiv.Perm ℕ, ∀ j, l'[π j]? = l[j]? := by
  have e : ∀ m : List A, (List.range m.length).map (fun j => m[j]?) = m.map some := by
    intro m
    apply List.ext_getElem
    · simp
    · intro i h1 h2
      rw [List.length_map] at h2
      simp [h2]
  obtain ⟨π, h1, h2⟩ := match_lists (fun j => l[j]?) (fun j => l'[j]?) (List.range l.length) (List.range l'.length)
    List.nodup_range List.nodup_range (by rw [e, e]; exact h.map _)
  refine ⟨π, fun j => ?_⟩
  by_cases hj : j < l.length
  · exact h1 j (List.mem_range.2 hj)
  · have : ¬ π j < l'.length := by
      intro h3
      have := h2.mem_iff.2 (List.mem_range.2 h3)
      rw [List.mem_map_of_injective π.injective, List.mem_range] at this
      exact hj this
    rw [List.getElem?_eq_none (by omega), List.getElem?_eq_none (by omega)]

theorem run_same {E : Env P R O} (hbox : BoxOk E)
    (hcen : ∀ l l' : List O, l.Perm l' → E.center l = E.center l') {prm : Params} {fuel : Nat} :
    ∀ {calls calls' : List (Call P R)} {s₁ s₂ s : St P}, List.Forall₂ Again calls calls' →
    (∀ d ∈ calls, CallOk E d ∧ CallCosts d ∧ Plain d) → (∀ d ∈ calls', CallOk E d ∧ CallCosts d) →
    Inv E s₁ → Inv E s₂ → Same s₁ s₂ → AllClear E prm fuel calls s₁ → run E prm fuel calls s₁ = some s →
    ∃ F s', (∀ fuel', F ≤ fuel' → run E prm fuel' calls' s₂ = some s') ∧ Same s s' := by
  intro calls calls' s₁ s₂ s h
  induction h generalizing s₁ s₂ with
  | nil =>
    intro _ _ _ _ hsame _ e
    simp only [run, Option.some.injEq] at e
    subst e
    exact ⟨0, s₂, fun _ _ => rfl, hsame⟩
  | @cons c c' l l' hc hl ih =>
    intro hok hok' hs hs2 hsame hclear e
    obtain ⟨hcl, hnext⟩ := hclear
    simp only [run] at e
    cases e1 : step E prm fuel s₁ c with
    | none => rw [e1] at e; cases e
    | some u =>
    rw [e1] at e
    obtain ⟨o1, o2, o3⟩ := hok c List.mem_cons_self
    obtain ⟨o1', o2'⟩ := hok' c' List.mem_cons_self
    have hu := step_inv hbox hs o1 e1
    obtain ⟨F, u', hu', hsu⟩ : ∃ F u', (∀ fuel', F ≤ fuel' → step E prm fuel' s₂ c' = some u') ∧ Same u u' := by
      cases hc with
      | predict m ord ord' =>
        obtain ⟨u', g, _⟩ := predict_spec hbox prm m o1' hs2.ok
        exact ⟨0, u', fun _ _ => g, predict_same hbox o1 o1' hs hs2 hsame e1 g⟩
      | correct S ch ch' scan scan' dflt dflt' wt perm =>
        obtain ⟨π, hπ⟩ := perm_scan perm
        simp only [step] at e1
        cases e2 : correct E S prm ch fuel scan dflt s₁ with
        | none => rw [e2] at e1; cases e1
        | some r =>
        rw [e2, Option.map_some, Option.some.injEq] at e1
        obtain ⟨v, reps⟩ := r
        subst e1
        obtain ⟨F, ⟨v', reps'⟩, hF⟩ := correct_same_defined hbox hs hs2 hsame o2.1 o2.2 o2'.2 o1 o1' hπ e2
        refine ⟨F, v', fun fuel' hf => by simp only [step, hF fuel' hf, Option.map_some], ?_⟩
        exact (correct_same hbox hcen hs hs2 hsame o2.1 (fun α => ⟨rfl, rfl, rfl, fun a => (o3.1 _ _).1,
          fun a => (o3.1 _ _).2.1, fun a => (o3.1 _ _).2.2.1, fun a => (o3.1 _ _).2.2.2, rfl, rfl⟩) wt o3.2 o2.2 o2'.2
          o1 o1' hπ e2 (hF F (le_refl _)) hcl).1
    have hui := step_inv hbox hs2 o1' (hu' F (le_refl _))
    obtain ⟨F', s', g1, g2⟩ := ih (fun d hd => hok d (List.mem_cons_of_mem _ hd))
      (fun d hd => hok' d (List.mem_cons_of_mem _ hd)) hu hui hsu (hnext u e1) e
    refine ⟨max F F', s', fun fuel' hf => ?_, g2⟩
    simp only [run]
    rw [hu' fuel' ((le_max_left _ _).trans hf)]
    exact g1 fuel' ((le_max_right _ _).trans hf)

/-- **C116** Run a program twice.  The second time the allocator may put the targets elsewhere (`cluster()` sorts
pointers), the clusters may be processed in another schedule, the loops over targets and births may take another
order, the priority queue may choose differently among equals, and the reports of every scan may be listed in
another order.  If the costs settle what is drawn in every scan of the first run and no order matters for what is
joined, the second run is defined as well and ends with the same targets: there is a one-to-one correspondence that
preserves existence probability, density and last action, and the queries give the same numbers. -/
theorem C116_again {E : Env P R O} (hbox : BoxOk E)
    (hcen : ∀ l l' : List O, l.Perm l' → E.center l = E.center l') (prm : Params) (fuel : Nat)
    (calls calls' : List (Call P R)) (hagain : List.Forall₂ Again calls calls')
    (hc : ∀ d ∈ calls, CallOk E d ∧ CallCosts d ∧ Plain d) (hc' : ∀ d ∈ calls', CallOk E d ∧ CallCosts d) (s : St P)
    (e : run E prm fuel calls St.empty = some s) (hclear : AllClear E prm fuel calls St.empty) :
    ∃ F s', (∀ fuel', F ≤ fuel' → run E prm fuel' calls' St.empty = some s') ∧
      (s.targets.map fun a => (s.heap a).map fun t => (t.r, t.pdf, t.la)).Perm
        (s'.targets.map fun a => (s'.heap a).map fun t => (t.r, t.pdf, t.la)) ∧
      enofTargets s' = enofTargets s ∧ (∀ rlim, nofTargets s' rlim = nofTargets s rlim) ∧
      ∀ b : RTree.Rect, b.Valid → enofTargetsIn s' b = enofTargetsIn s b ∧
        ∀ rlim, nofTargetsIn s' b rlim = nofTargetsIn s b rlim := by
  classical
  obtain ⟨F, s', h1, h2⟩ := run_same hbox hcen hagain hc hc' (Inv.empty E) (Inv.empty E) (List.Perm.refl _) hclear e
  refine ⟨F, s', h1, h2, ?_⟩
  obtain ⟨l, k1, k2, k3, k4, k5, k6⟩ := C30_queries_agree hbox prm fuel calls (fun d hd => (hc d hd).1) s e
  obtain ⟨l', m1, m2, m3, m4, m5, m6⟩ := C30_queries_agree hbox prm F calls' (fun d hd => (hc' d hd).1) s'
    (h1 F (le_refl _))
  have hval : ∀ {s : St P} {l : List (Nat × Tgt P)}, readAll s.heap s.targets = some l →
      s.targets.map (coreAt s.heap) = (l.map fun t => core t.2).map some := by
    intro s l h
    obtain ⟨g1, g2⟩ := readAll_spec h
    rw [← g1, List.map_map, List.map_map]
    apply List.map_congr_left
    intro t ht
    simp only [Function.comp_apply, coreAt, g2 t ht, Option.map_some]
  have hp : (l.map fun t => core t.2).Perm (l'.map fun t => core t.2) := by
    have := h2
    unfold Same at this
    rw [hval k1, hval m1] at this
    exact (List.map_perm_map_iff (Option.some_injective _)).1 this
  have hsum : ∀ {a b : List (Nat × Tgt P)}, (a.map fun t => core t.2).Perm (b.map fun t => core t.2) →
      (b.map fun t => t.2.r).sum = (a.map fun t => t.2.r).sum := by
    intro a b h
    have := (h.map Prod.fst).sum_eq
    simp only [List.map_map] at this
    exact this.symm
  have hnum : ∀ {a b : List (Nat × Tgt P)} (rlim : ℝ), (a.map fun t => core t.2).Perm (b.map fun t => core t.2) →
      (b.filter fun t => decide (rlim ≤ t.2.r)).length = (a.filter fun t => decide (rlim ≤ t.2.r)).length := by
    intro a b rlim h
    have := (h.filter fun x => decide (rlim ≤ x.1)).length_eq
    rw [List.filter_map, List.filter_map, List.length_map, List.length_map] at this
    exact this.symm
  refine ⟨by rw [k4, m4, hsum hp], fun rlim => by rw [k5, m5, hnum rlim hp], fun b hb => ?_⟩
  obtain ⟨r, g1, g2, g3, g4⟩ := k6 b hb
  obtain ⟨r', n1, n2, n3, n4⟩ := m6 b hb
  have hq : (r.map fun t => core t.2).Perm (r'.map fun t => core t.2) := by
    refine (g2.map _).trans (List.Perm.trans ?_ (n2.map _).symm)
    have := hp.filter fun x : ℝ × P × Char => decide (b.Touch (E.box x.2.1))
    rw [List.filter_map, List.filter_map] at this
    exact this
  exact ⟨by rw [g3, n3, hsum hq], fun rlim => by rw [g4, n4, hnum rlim hq]⟩

/-- Without limits everything is clear that is joined in any order. -/
theorem unlimited_clear {E : Env P R O} (hbox : BoxOk E) {prm : Params} {fuel : Nat} (hfirm : ∀ p l, Firm E p l)
    (hwl : prm.wlim ≤ 0) : ∀ (calls : List (Call P R)) (s s' : St P), Inv E s →
    (∀ d ∈ calls, CallOk E d ∧ CallCosts d ∧ Plain d) → (∀ d ∈ calls, ((d.reports : ℝ) + 60) ^ 30 ≤ prm.nhypMax) →
    run E prm fuel calls s = some s' → AllClear E prm fuel calls s
  | [], _, _, _, _, _, _ => trivial
  | c :: l, s, s', hs, hok, hn, e => by
    simp only [run] at e
    cases e1 : step E prm fuel s c with
    | none => rw [e1] at e; cases e
    | some u =>
    rw [e1] at e
    obtain ⟨o1, o2, o3⟩ := hok c List.mem_cons_self
    refine ⟨?_, fun v hv => ?_⟩
    · cases c with
      | predict m ord => trivial
      | correct S ch scan dflt =>
        simp only [step] at e1
        cases e2 : correct E S prm ch fuel scan dflt s with
        | none => rw [e2] at e1; cases e1
        | some r =>
          obtain ⟨s2, reps⟩ := r
          have hn' : ((scan.length : ℝ) + 60) ^ 30 ≤ prm.nhypMax := hn (.correct S ch scan dflt) List.mem_cons_self
          exact ⟨unlimited_settled hbox hs o2.1 o3.2 o2.2 o1 e2 hwl hn', fun _ p l _ => hfirm p l⟩
    · rw [e1] at hv
      obtain rfl := Option.some.inj hv
      exact unlimited_clear hbox hfirm hwl l u s' (step_inv hbox hs o1 e1) (fun d hd => hok d (List.mem_cons_of_mem _ hd))
        (fun d hd => hn d (List.mem_cons_of_mem _ hd)) e

/-- Other choices: the schedule and the order of births reversed, other addresses. -/
noncomputable def exCh2 : Choices := { exCh' with ord := List.reverse, alloc := fun l => 3 * l.sum + 7 }

theorem exCh2_ok : ChOk exCh2 := by
  refine ⟨exCh'_ok.sched, fun l => List.reverse_perm l, fun l h => ?_⟩
  have := List.single_le_sum (fun _ _ => Nat.zero_le _) _ h
  simp only [exCh2] at this
  omega

/-- The program of the example history, and once more. -/
example : ∃ (F : Nat) (s s' : St ℚ),
    run exEc exPrmAll F [.correct exS exCh exScan ⟨0, none, 0⟩, .predict exM id, .correct exS exCh exScan ⟨0, none, 0⟩]
      St.empty = some s ∧
    run exEc exPrmAll F [.correct exS exCh2 exScan.reverse ⟨0, none, 0⟩, .predict exM List.reverse,
      .correct exS exCh2 exScan.reverse ⟨0, none, 0⟩] St.empty = some s' ∧
    enofTargets s' = enofTargets s := by
  have hok : ∀ (ch : Choices) (ord : List Nat → List Nat) (sc : List (Rep ℚ)), ChOk ch → (∀ l, (ord l).Perm l) →
      (∀ r c, PickOk (ch.pick r c)) → (∀ q, 0 ≤ ch.wt q) →
      ∀ d ∈ ([.correct exS ch sc ⟨0, none, 0⟩, .predict exM ord, .correct exS ch sc ⟨0, none, 0⟩] : List (Call ℚ ℚ)),
        CallOk exEc d ∧ CallCosts d ∧ Plain d := by
    intro ch ord sc h1 h2 h3 h4 d hd
    simp only [List.mem_cons, List.not_mem_nil, or_false] at hd
    rcases hd with rfl | rfl | rfl
    · exact ⟨⟨exS_fov, h1, fun z _ => exE_rbox _⟩, ⟨exS_costs, h3⟩, fun _ _ => ⟨rfl, rfl, rfl, rfl⟩, h4⟩
    · exact ⟨h2, trivial, trivial⟩
    · exact ⟨⟨exS_fov, h1, fun z _ => exE_rbox _⟩, ⟨exS_costs, h3⟩, fun _ _ => ⟨rfl, rfl, rfl, rfl⟩, h4⟩
  have hbox : BoxOk exEc := exE_box
  have k1 := hok exCh id exScan exCh_ok (fun l => List.Perm.refl _) exCh_pick fun q => (Hyp.ew_pos q).le
  have k2 := hok exCh2 List.reverse exScan.reverse exCh2_ok List.reverse_perm exCh_pick fun q => (Hyp.ew_pos q).le
  obtain ⟨F, s, hF⟩ := C26_defined hbox exPrmAll _ (fun d hd => (k1 d hd).1) (fun d hd => (k1 d hd).2.1)
    (by simp [Call.reports, exScan])
  have hrun := hF F (le_refl _)
  obtain ⟨F', s', g1, _, g3, _⟩ := C116_again hbox (fun l l' h => h.sum_eq) exPrmAll F _ _ (.cons
      (Again.correct exS exCh exCh2 exScan exScan.reverse ⟨0, none, 0⟩ ⟨0, none, 0⟩ rfl (List.reverse_perm _).symm)
      (.cons (Again.predict exM id List.reverse) (.cons
      (Again.correct exS exCh exCh2 exScan exScan.reverse ⟨0, none, 0⟩ ⟨0, none, 0⟩ rfl (List.reverse_perm _).symm) .nil)))
    k1 (fun d hd => ⟨(k2 d hd).1, (k2 d hd).2.1⟩) s hrun
    (unlimited_clear hbox (fun p l l' _ _ => rfl) (le_refl _) _ _ _ (Inv.empty _) k1 (by
      intro d hd
      simp only [List.mem_cons, List.not_mem_nil, or_false] at hd
      rcases hd with rfl | rfl | rfl <;> simp only [Call.reports, exScan, exPrmAll] <;> norm_num) hrun)
  exact ⟨max F F', s, s', hF _ (le_max_left _ _), g1 _ (le_max_right _ _), g3⟩

/-- **C116 refuted for the numbers of targets** The correspondence does not preserve `id`: `birth` runs a parallel
loop, and numbers are given in the order in which its iterations enter the critical section.  Two reports on an
empty tracker start targets 0 and 1; which one is 0 depends on the schedule. -/
theorem C116_ids_refuted : ¬ ∀ (fuel : Nat) (S : Sensor ℚ ℚ) (ch ch' : Choices) (scan : List (Rep ℚ)) (dflt : Rep ℚ)
    (s s' : St ℚ) (reps reps' : Nat → Rep ℚ), CostsOk S → CallOk exApart (.correct S ch scan dflt) →
    CallOk exApart (.correct S ch' scan dflt) → ch'.pick = ch.pick → ch'.wt = ch.wt → ch'.alloc = ch.alloc →
    ch'.sched = ch.sched →
    correct exApart S exPrm ch fuel scan dflt St.empty = some (s, reps) →
    correct exApart S exPrm ch' fuel scan dflt St.empty = some (s', reps') →
    ∀ a t, s.heap a = some t → ∃ b t', s'.heap b = some t' ∧ t'.id = t.id ∧ t'.pdf = t.pdf := by
  intro H
  let ch' : Choices := { exCh with ord := List.reverse }
  have hch' : ChOk ch' := ⟨exCh_ok.sched, fun l => List.reverse_perm l, exCh_ok.alloc⟩
  let scan : List (Rep ℚ) := [⟨0, none, 0⟩, ⟨100, none, 0⟩]
  have hok : ∀ ch, ChOk ch → CallOk exApart (.correct exBlind ch scan ⟨0, none, 0⟩) :=
    fun ch h => ⟨exS_fov, h, fun z _ => exE_rbox _⟩
  have hno : ∀ a, ¬ Gated exApart exBlind scan (St.empty : St ℚ) a := by
    rintro a ⟨t, ht, _⟩
    simp [St.empty] at ht
  obtain ⟨s, reps, new, g1, g2, _, _, g5, _⟩ := C58_unreached_scan exApart_box exPrm 0 [] (by simp) St.empty rfl exBlind
    exCh scan ⟨0, none, 0⟩ (hok _ exCh_ok) hno
  obtain ⟨s', reps', new', k1, k2, _, _, k5, _⟩ := C58_unreached_scan exApart_box exPrm 0 [] (by simp) St.empty rfl exBlind
    ch' scan ⟨0, none, 0⟩ (hok _ hch') hno
  have hlen := g5 (by simp only [exPrm, scan]; norm_num) (by simp only [exPrm, exBlind, exS, scan]; norm_num)
  have hlen' := k5 (by simp only [exPrm, scan]; norm_num) (by simp only [exPrm, exBlind, exS, scan]; norm_num)
  obtain ⟨cls, s1, rcid, nw, d, _⟩ := correct_origin exApart_box (hok _ exCh_ok).1 exCh_ok (hok _ exCh_ok).2.2
    (Inv.empty _) g1
  obtain ⟨cls', s1', rcid', nw', d', _⟩ := correct_origin exApart_box (hok _ hch').1 hch' (hok _ hch').2.2
    (Inv.empty _) k1
  have hp := d'.prep
  rw [d.prep, Option.some.injEq, Prod.mk.injEq, Prod.mk.injEq] at hp
  obtain ⟨rfl, rfl, rfl⟩ := hp
  have hreps : reps' = reps := by rw [d.rep, d'.rep]
  subst hreps
  have hnw : new = nw := by
    have := d.targets
    rw [g2] at this
    simpa [St.empty] using this
  have hnw' : new' = nw' := by
    have := d'.targets
    rw [k2] at this
    simpa [St.empty] using this
  subst hnw hnw'
  have hrev : births exBlind exPrm ch'.ord cls scan.length reps' =
      (births exBlind exPrm exCh.ord cls scan.length reps').reverse := by
    unfold births
    cases rBsum scan.length reps' with
    | none => rfl
    | some sum =>
      simp only
      split
      · exact List.filterMap_reverse
      · rfl
  obtain ⟨_, _, _, q1, _, _, _, _, q6, _⟩ := prepare_ok exApart_box (hok _ exCh_ok).1 (hok _ exCh_ok).2.2
    (Inv.empty exApart).ok
  rw [d.prep, Option.some.injEq, Prod.mk.injEq, Prod.mk.injEq] at q1
  obtain ⟨rfl, rfl, rfl⟩ := q1
  have hbl : (births exBlind exPrm exCh.ord cls scan.length reps').length = 2 := by rw [← d.len, hlen]; rfl
  have hnd := births_nodup (S := exBlind) (prm := exPrm) (reps := reps') exCh_ok.ord q6
  have hmem : ∀ p ∈ births exBlind exPrm exCh.ord cls scan.length reps', p.1 < scan.length := fun p hp => (births_mem (S := exBlind) (prm := exPrm) (reps := reps') exCh_ok.ord q6
    (j := p.1) (x := p.2) hp).1
  have hb := d.born
  have hb' := d'.born
  rw [hrev] at hb'
  match hbb : births exBlind exPrm exCh.ord cls scan.length reps', hbl with
  | [x, y], _ =>
  rw [hbb] at hnd hb hb' hmem
  have h0 : 0 < new.length := by rw [hlen]; decide
  obtain ⟨a, hnew⟩ : ∃ a, new[0]? = some a := ⟨new[0], List.getElem?_eq_getElem h0⟩
  obtain ⟨b, t', hbt, hid, hpdf⟩ := H 0 exBlind exCh ch' scan ⟨0, none, 0⟩ s s' reps' reps'
    ⟨exS_costs.det, exS_costs.miss, exS_costs.fls⟩ (hok _ exCh_ok) (hok _ hch') rfl rfl rfl rfl g1 k1 a _
    (hb 0 a x.1 x.2 hnew rfl)
  have hbm : b ∈ new' := by
    have := ((correct_inv exApart_box (hok _ hch') (Inv.empty _) k1).ok.live b).1 ⟨t', hbt⟩
    rw [k2] at this
    simpa [St.empty] using this
  obtain ⟨m, hm⟩ := List.mem_iff_getElem?.1 hbm
  have hm2 : m < 2 := by
    have := (List.getElem?_eq_some_iff.1 hm).1
    rw [hlen'] at this
    exact this
  have hval : ∀ j, j < 2 → (reps' j).val = if j = 0 then 0 else 100 := by
    intro j hj
    obtain ⟨o, ho⟩ := C58_reports_kept exApart_box exPrm 0 [] (by simp) St.empty rfl exBlind exCh scan
      ⟨0, none, 0⟩ (hok _ exCh_ok) s reps' g1 j (scan[j]'hj) (List.getElem?_eq_getElem hj)
    rw [ho]
    have : j = 0 ∨ j = 1 := by omega
    rcases this with rfl | rfl <;> rfl
  have hx := hmem x (by simp)
  have hy := hmem y (by simp)
  have hxy : x.1 ≠ y.1 := by
    have := hnd
    simp only [List.map_cons, List.map_nil, List.nodup_cons, List.mem_singleton] at this
    exact this.1
  have hx : x.1 < 2 := hx
  have hy : y.1 < 2 := hy
  have : m = 0 ∨ m = 1 := by omega
  rcases this with rfl | rfl
  · have h1 := hb' 0 b y.1 y.2 hm rfl
    rw [hbt, Option.some.injEq] at h1
    subst h1
    have hpdf : (reps' y.1).val = (reps' x.1).val := hpdf
    rw [hval _ hx, hval _ hy] at hpdf
    split at hpdf <;> split at hpdf <;> first | omega | norm_num at hpdf
  · have h1 := hb' 1 b x.1 x.2 hm rfl
    rw [hbt, Option.some.injEq] at h1
    subst h1
    simp [St.empty] at hid

end Verif.Tracker

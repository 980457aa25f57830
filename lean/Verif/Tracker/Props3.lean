import Verif.Tracker.Props2

/-! # Properties of the tracker: existence probabilities, queries, order (C29–C31) -/

namespace Verif.Tracker

open Verif.RTree (Rect WF items)
open Verif.Cluster (Cl)
open Verif.Hyp Verif.Lap Verif.Murty

variable {P R O : Type}

/-! ## C29 -/

/-- `G` is kept by the operations of the density class, and the mass that `normalize` finds in a
density with `G` is in [0,1]. -/
structure EnvKeeps (E : Env P R O) (G : P → Prop) : Prop where
  toLocal : ∀ o p, G p → G (E.toLocal o p)
  toGlobal : ∀ p, G p → G (E.toGlobal p)
  normalize : ∀ p, G p → G (E.normalize p) ∧ 0 ≤ E.eta (E.normalize p) ∧ E.eta (E.normalize p) ≤ 1
  join : ∀ p w ps, G p → (∀ x ∈ w, 0 ≤ x ∧ x ≤ 1) → (∀ q ∈ ps, G q) → G (E.join p w ps)

/-- The call keeps `G`; survival factors are in [0,1]; weights of hypotheses are not negative. -/
def CallKeeps (G : P → Prop) : Call P R → Prop
  | .predict m _ => 0 ≤ m.factor ∧ m.factor ≤ 1 ∧ ∀ p, G p → G (m.pdf p)
  | .correct S ch _ _ => (∀ q, 0 ≤ ch.wt q) ∧ (∀ z, G (S.init z)) ∧
      (∀ a p z, G p → G (S.upd a p z)) ∧ ∀ a p, G p → G (S.missPdf a p)

/-- A target with an existence probability and a density as they should be. -/
def TOk (G : P → Prop) (t : Tgt P) : Prop := 0 ≤ t.r ∧ t.r ≤ 1 ∧ G t.pdf

theorem compute_keeps {E : Env P R O} {G : P → Prop} (hE : EnvKeeps E G) {S : Sensor P R}
    (hu : ∀ a p z, G p → G (S.upd a p z)) (hm : ∀ a p, G p → G (S.missPdf a p)) {prm : Params}
    {pick : ∀ r c, List (Node r c) → Nat} {fuel : Nat} {wt : ℚ → ℝ} (hwt : ∀ q, 0 ≤ wt q)
    {ts : List (Nat × Tgt P)} {rs : List R} {v : Comp P R} (hts : ∀ x ∈ ts, TOk G x.2)
    (e : compute E S prm pick fuel wt ts rs = some v) : ∀ t ∈ v.ts, TOk G t := by
  unfold compute at e
  simp only at e
  set o := E.center (rs.map E.rpos ++ ts.map fun t => E.pos t.2.pdf) with ho
  set rl := rs.map (E.rLocal o) with hrl
  set tl := ts.map fun t => (t.1, forth E o t.2) with htl
  have htl' : ∀ x ∈ tl, TOk G x.2 := by
    intro x hx
    obtain ⟨y, hy, rfl⟩ := List.mem_map.1 hx
    obtain ⟨h1, h2, h3⟩ := hts y hy
    exact ⟨h1, h2, hE.toLocal _ _ h3⟩
  split at e
  · injection e with e
    subst e
    intro t ht
    simp at ht
  · split at e
    · cases e
    · rename_i a ha
      have hb := hypotheses_bnd hwt ha
      split at e
      · injection e with e
        subst e
        intro t ht
        obtain ⟨y, hy, rfl⟩ := List.mem_map.1 ht
        obtain ⟨h1, h2, h3⟩ := htl' y hy
        exact ⟨h1, h2, hE.toGlobal _ h3⟩
      · injection e with e
        subst e
        intro t ht
        simp only [List.mem_ofFn, Set.mem_range] at ht
        obtain ⟨i, rfl⟩ := ht
        have hi := htl' (tl.get i) (List.get_mem _ _)
        have hpost := hb.posterior i
        refine ⟨hpost.1, hpost.2, ?_⟩
        apply hE.toGlobal
        simp only [corrected]
        split
        · apply hE.join _ _ _ hi.2.2
          · intro x hx
            simp only [List.mem_ofFn, Set.mem_range] at hx
            obtain ⟨j, rfl⟩ := hx
            exact hb.row i j
          · intro q hq
            rcases List.mem_append.1 hq with hq | hq
            · obtain ⟨z, _, rfl⟩ := List.mem_map.1 hq
              exact hu _ _ _ hi.2.2
            · rw [List.mem_singleton] at hq
              subst hq
              exact hm _ _ hi.2.2
        · exact hi.2.2

theorem step_keeps {E : Env P R O} (hbox : BoxOk E) {G : P → Prop}
    (hE : EnvKeeps E G) {prm : Params} (hlim : 0 ≤ prm.rlim) (hmax0 : 0 ≤ prm.rBmax)
    (hmax1 : prm.rBmax ≤ 1) {fuel : Nat} {s s' : St P} (hs : Inv E s) {c : Call P R}
    (hc : CallOk E c) (hg : CallKeeps G c) (hold : ∀ a t, s.heap a = some t → TOk G t)
    (e : step E prm fuel s c = some s') : ∀ a t, s'.heap a = some t → TOk G t := by
  cases c with
  | predict m ord =>
    obtain ⟨s1, h1, h2, h3, h4, h5⟩ := predict_spec hbox prm m hc hs.ok
    simp only [step, h1, Option.some.injEq] at e
    subst e
    intro a u hu
    rw [h4, Option.filter_eq_some_iff, Option.map_eq_some_iff] at hu
    obtain ⟨⟨t, ht, rfl⟩, _⟩ := hu
    obtain ⟨t1, t2, t3⟩ := hold a t ht
    obtain ⟨m1, m2, m3⟩ := hg
    obtain ⟨n1, n2, n3⟩ := hE.normalize _ (m3 _ (hE.toLocal (E.pos t.pdf) t.pdf t3))
    refine ⟨mul_nonneg (mul_nonneg t1 m1) n2, ?_, hE.toGlobal _ n1⟩
    exact mul_le_one₀ (mul_le_one₀ t2 m1 m2) n2 n3
  | correct S ch scan dflt =>
    obtain ⟨hf, hch, hz⟩ := hc
    obtain ⟨g1, g2, g3, g4⟩ := hg
    simp only [step, Option.map_eq_some_iff] at e
    obtain ⟨⟨s2, reps⟩, e, rfl⟩ := e
    obtain ⟨cls, s1, rcid, new, h1, h2, h3, h4⟩ := correct_origin hbox hf hch hz hs e
    obtain ⟨cls', s1', rcid', p1, p2, p3, p4, p5, p6, p7, p8, p9, p10⟩ :=
      prepare_ok hbox hf hz hs.ok
    rw [h1.prep, Option.some.injEq, Prod.mk.injEq, Prod.mk.injEq] at p1
    obtain ⟨rfl, rfl, rfl⟩ := p1
    intro a u hu
    by_cases hn : a ∈ new
    · obtain ⟨k, hk⟩ := List.mem_iff_getElem?.1 hn
      obtain ⟨j, x, hjx, hh⟩ := h1.new_born hk
      have hm := births_mem hch.ord p6 (List.mem_of_getElem? hjx)
      simp only at hu
      rw [hu] at hh
      injection hh with hh
      subst hh
      exact ⟨le_min (hlim.trans hm.2.1) hmax0, (min_le_right _ _).trans hmax1, g2 _⟩
    · by_cases hgt : Gated E S scan s a
      · obtain ⟨_, t, c, v, k, _, _, hcm, _, hcv, hk⟩ := h4 a hn hgt u hu
        unfold compOf at hcv
        cases hr : readAll s1.heap c.targets with
        | none => simp [hr] at hcv
        | some ts =>
          simp only [hr] at hcv
          refine compute_keeps hE g3 g4 g1 ?_ hcv u (List.mem_of_getElem? hk)
          intro x hx
          have := (readAll_spec hr).2 x hx
          obtain ⟨t0, q1, q2, q3, q4, _⟩ := p10 _ _ this
          obtain ⟨r1, r2, r3⟩ := hold _ _ q1
          exact ⟨by rw [q3]; exact r1, by rw [q3]; exact r2, by rw [q4]; exact r3⟩
      · simp only at hu
        rw [h3 a hn hgt] at hu; exact hold a u hu

/-- **C29** In every state reached by `predict` (with survival factors in [0,1]) and `correct` the
existence probability of every target is in [0,1].  `G` is what the density class keeps of its
weights (for mixtures: not negative and adding up to at most one). -/
theorem C29_r_range {E : Env P R O} (hbox : BoxOk E) {G : P → Prop}
    (hE : EnvKeeps E G) (prm : Params) (hlim : 0 ≤ prm.rlim) (hmax0 : 0 ≤ prm.rBmax)
    (hmax1 : prm.rBmax ≤ 1) (fuel : Nat) (calls : List (Call P R)) (hc : ∀ c ∈ calls, CallOk E c)
    (hg : ∀ c ∈ calls, CallKeeps G c) (s : St P) (e : run E prm fuel calls St.empty = some s) :
    ∀ a t, s.heap a = some t → 0 ≤ t.r ∧ t.r ≤ 1 := by
  have key : ∀ (calls : List (Call P R)) (s0 : St P), Inv E s0 →
      (∀ a t, s0.heap a = some t → TOk G t) → (∀ c ∈ calls, CallOk E c) →
      (∀ c ∈ calls, CallKeeps G c) → run E prm fuel calls s0 = some s →
      ∀ a t, s.heap a = some t → TOk G t := by
    intro calls
    induction calls with
    | nil =>
      intro s0 _ h0 _ _ e
      simp only [run, Option.some.injEq] at e
      subst e
      exact h0
    | cons c l ih =>
      intro s0 hi h0 hc hg e
      simp only [run] at e
      cases h : step E prm fuel s0 c with
      | none => simp [h] at e
      | some s1 =>
        simp only [h] at e
        exact ih s1 (step_inv hbox hi (hc c List.mem_cons_self) h)
          (step_keeps hbox hE hlim hmax0 hmax1 hi (hc c List.mem_cons_self)
            (hg c List.mem_cons_self) h0 h)
          (fun d hd => hc d (List.mem_cons_of_mem _ hd))
          (fun d hd => hg d (List.mem_cons_of_mem _ hd)) e
  intro a t ht
  have := key calls St.empty (Inv.empty E) (fun a t h => by simp [St.empty] at h) hc hg e a t ht
  exact ⟨this.1, this.2.1⟩

/-- The survival factor of `CV`, `models.hpp:19,42`, is in [0,1] when time does not go back. -/
theorem C29_cv_factor {pS dT : ℝ} (h0 : 0 ≤ pS) (h1 : pS ≤ 1) (hT : 0 ≤ dT) :
    0 ≤ pS ^ dT ∧ pS ^ dT ≤ 1 :=
  ⟨Real.rpow_nonneg h0 _, Real.rpow_le_one h0 h1 hT⟩

/-- When time goes back the factor exceeds one, and an existence probability leaves [0,1]: with
`pS = 1/2`, `dT = -1` and `r = 3/4` the product is 3/2. -/
theorem C29_time_back : (3 / 4 : ℝ) * (1 / 2 : ℝ) ^ (-1 : ℝ) = 3 / 2 := by
  rw [Real.rpow_neg_one]; norm_num

example : (0 : ℝ) ≤ (9 / 10 : ℝ) ^ (3 / 2 : ℝ) ∧ (9 / 10 : ℝ) ^ (3 / 2 : ℝ) ≤ 1 :=
  C29_cv_factor (by norm_num) (by norm_num) (by norm_num)

theorem exKeeps : EnvKeeps exE fun _ => True :=
  ⟨fun _ _ _ => trivial, fun _ _ => trivial, fun _ _ => ⟨trivial, zero_le_one, le_refl _⟩,
    fun _ _ _ _ _ _ => trivial⟩

theorem exCallKeeps : ∀ c ∈ exCalls, CallKeeps (fun _ => True) c := by
  intro c hc
  simp only [exCalls, List.mem_cons, List.not_mem_nil, or_false] at hc
  rcases hc with rfl | rfl | rfl
  · exact ⟨fun q => (ew_pos q).le, fun _ => trivial, fun _ _ _ _ => trivial, fun _ _ _ => trivial⟩
  · exact ⟨by simp only [exM]; norm_num, by simp only [exM]; norm_num, fun _ _ => trivial⟩
  · exact ⟨fun q => (ew_pos q).le, fun _ => trivial, fun _ _ _ _ => trivial, fun _ _ _ => trivial⟩

example : ∃ F s, run exE exPrm F exCalls St.empty = some s ∧
    ∀ a t, s.heap a = some t → 0 ≤ t.r ∧ t.r ≤ 1 := by
  obtain ⟨F, s, h⟩ := exRun
  exact ⟨F, s, h F (le_refl _), C29_r_range exE_box exKeeps exPrm (by simp only [exPrm]; norm_num)
    (by simp only [exPrm]; norm_num) (by simp only [exPrm]; norm_num) F exCalls exCalls_ok
    exCallKeeps s (h F (le_refl _))⟩

/-! ## C30 -/

theorem sumR_spec {h : Nat → Option (Tgt P)} {l : List Nat} {ts : List (Nat × Tgt P)}
    (e : readAll h l = some ts) (x : ℝ) : sumR h l x = some (x + (ts.map fun t => t.2.r).sum) := by
  induction l generalizing ts x with
  | nil => simp only [readAll, Option.some.injEq] at e; subst e; simp [sumR]
  | cons a l ih =>
    simp only [readAll] at e
    cases h1 : h a with
    | none => simp [h1] at e
    | some t =>
      cases h2 : readAll h l with
      | none => simp [h1, h2] at e
      | some ts' =>
        simp only [h1, h2, Option.some.injEq] at e
        subst e
        simp only [sumR, h1, ih h2, List.map_cons, List.sum_cons, add_assoc]

open Classical in
theorem countR_spec {h : Nat → Option (Tgt P)} {rlim : ℝ} {l : List Nat} {ts : List (Nat × Tgt P)}
    (e : readAll h l = some ts) (x : Nat) (hx : x < 2 ^ 32) : countR h rlim l x =
      some ((x + (ts.filter fun t => decide (rlim ≤ t.2.r)).length) % 2 ^ 32) := by
  induction l generalizing ts x with
  | nil =>
    simp only [readAll, Option.some.injEq] at e
    subst e
    simp only [countR, List.filter_nil, List.length_nil, Nat.add_zero]
    rw [Nat.mod_eq_of_lt hx]
  | cons a l ih =>
    simp only [readAll] at e
    cases h1 : h a with
    | none => simp [h1] at e
    | some t =>
      cases h2 : readAll h l with
      | none => simp [h1, h2] at e
      | some ts' =>
        simp only [h1, h2, Option.some.injEq] at e
        subst e
        by_cases hr : rlim ≤ t.r
        · simp only [countR, h1, if_pos hr]
          rw [ih h2 _ (Nat.mod_lt _ (by positivity)), List.filter_cons_of_pos (by simpa using hr),
            List.length_cons]
          congr 1
          omega
        · simp only [countR, h1, if_neg hr]
          rw [ih h2 _ hx, List.filter_cons_of_neg (by simpa using hr)]

theorem readAll_nodup {h : Nat → Option (Tgt P)} {l : List Nat} {ts : List (Nat × Tgt P)}
    (e : readAll h l = some ts) (hnd : l.Nodup) : ts.Nodup := by
  have := (readAll_spec e).1
  rw [← this] at hnd
  exact hnd.of_map _

theorem readAll_mem {h : Nat → Option (Tgt P)} {l : List Nat} {ts : List (Nat × Tgt P)}
    (e : readAll h l = some ts) (x : Nat × Tgt P) : x ∈ ts ↔ x.1 ∈ l ∧ h x.1 = some x.2 := by
  obtain ⟨h1, h2⟩ := readAll_spec e
  constructor
  · intro hx
    exact ⟨by rw [← h1]; exact List.mem_map_of_mem hx, h2 x hx⟩
  · rintro ⟨hl, hh⟩
    rw [← h1, List.mem_map] at hl
    obtain ⟨y, hy, hxy⟩ := hl
    have := h2 y hy
    rw [hxy, hh] at this
    have : y = x := Prod.ext hxy (Option.some.inj this).symm
    rw [← this]; exact hy

open Classical in
/-- **C30** In every reachable state, with `l` the list returned by `get_targets()`: it holds each
live target once; `enof_targets()` is the sum of `r` over `l`; `nof_targets(r_lim)` is the number of
entries with `r ≥ r_lim` (as a 32-bit number); for a box, `get_targets(box)` returns – in some
order, each once – the entries of `l` whose box touches it, and the other two are the corresponding
sum and number. -/
theorem C30_queries_agree {E : Env P R O} (hbox : BoxOk E) (prm : Params) (fuel : Nat)
    (calls : List (Call P R)) (hc : ∀ c ∈ calls, CallOk E c) (s : St P)
    (e : run E prm fuel calls St.empty = some s) :
    ∃ l : List (Nat × Tgt P), getAll s = some l ∧ l.Nodup ∧
      (∀ a t, (a, t) ∈ l ↔ s.heap a = some t) ∧
      enofTargets s = some (l.map fun t => t.2.r).sum ∧
      (∀ rlim, nofTargets s rlim =
        some ((l.filter fun t => decide (rlim ≤ t.2.r)).length % 2 ^ 32)) ∧
      ∀ b : Rect, b.Valid → ∃ l' : List (Nat × Tgt P), getIn s b = some l' ∧
        l'.Perm (l.filter fun t => decide (b.Touch (E.box t.2.pdf))) ∧
        enofTargetsIn s b = some (l'.map fun t => t.2.r).sum ∧
        ∀ rlim, nofTargetsIn s b rlim =
          some ((l'.filter fun t => decide (rlim ≤ t.2.r)).length % 2 ^ 32) := by
  have hs := run_inv hbox (Inv.empty E) hc e
  obtain ⟨l, hl⟩ := readAll_some (h := s.heap) (l := s.targets) fun a ha => (hs.ok.live a).2 ha
  have hmem : ∀ a t, (a, t) ∈ l ↔ s.heap a = some t := by
    intro a t
    rw [readAll_mem hl]
    exact ⟨fun h => h.2, fun h => ⟨(hs.ok.live a).1 ⟨t, h⟩, h⟩⟩
  refine ⟨l, hl, readAll_nodup hl hs.ok.nodup, hmem, ?_, ?_, ?_⟩
  · unfold enofTargets
    rw [sumR_spec hl, zero_add]
  · intro rlim
    unfold nofTargets
    rw [countR_spec hl _ (by positivity), zero_add]
  · intro b hb
    obtain ⟨q, h1, h2, h3⟩ := query_ok hbox hs.ok b hb
    obtain ⟨l', hl'⟩ := readAll_some (h := s.heap) (l := q) fun a ha => by
      obtain ⟨_, _, t, ht, _⟩ := (h3 a).1 ha
      exact ⟨t, ht⟩
    refine ⟨l', by simp only [getIn, h1, hl'], ?_, ?_, ?_⟩
    · rw [List.perm_ext_iff_of_nodup (readAll_nodup hl' h2)
        ((readAll_nodup hl hs.ok.nodup).filter _)]
      rintro ⟨a, t⟩
      rw [readAll_mem hl', List.mem_filter, hmem, h3]
      simp only [decide_eq_true_eq]
      constructor
      · rintro ⟨⟨_, _, t', ht', htouch⟩, ht⟩
        rw [ht] at ht'
        obtain rfl := Option.some.inj ht'
        exact ⟨ht, htouch⟩
      · rintro ⟨ht, htouch⟩
        exact ⟨⟨(hs.ok.live a).1 ⟨t, ht⟩, fun h => h, t, ht, htouch⟩, ht⟩
    · simp only [enofTargetsIn, h1]
      rw [sumR_spec hl', zero_add]
    · intro rlim
      simp only [nofTargetsIn, h1]
      rw [countR_spec hl' _ (by positivity), zero_add]

/-- **C30, regions** A region never holds more than the whole: fewer targets, and (as existence
probabilities are not negative, C29) a smaller expected number. -/
theorem C30_region_le {E : Env P R O} (hbox : BoxOk E) (prm : Params) (fuel : Nat)
    (calls : List (Call P R)) (hc : ∀ c ∈ calls, CallOk E c) (s : St P)
    (e : run E prm fuel calls St.empty = some s) (hpos : ∀ a t, s.heap a = some t → 0 ≤ t.r)
    (hn : s.targets.length < 2 ^ 32) (b : Rect) (hb : b.Valid) :
    (∃ x y, enofTargetsIn s b = some x ∧ enofTargets s = some y ∧ x ≤ y) ∧
    ∀ rlim, ∃ m n, nofTargetsIn s b rlim = some m ∧ nofTargets s rlim = some n ∧ m ≤ n := by
  classical
  obtain ⟨l, h1, h2, h3, h4, h5, h6⟩ := C30_queries_agree hbox prm fuel calls hc s e
  obtain ⟨l', g1, g2, g3, g4⟩ := h6 b hb
  have hlen : l.length = s.targets.length := by
    have := (readAll_spec h1).1
    rw [← this, List.length_map]
  refine ⟨⟨_, _, g3, h4, ?_⟩, fun rlim => ⟨_, _, g4 rlim, h5 rlim, ?_⟩⟩
  · rw [(g2.map _).sum_eq]
    have hp : ∀ x ∈ l, 0 ≤ x.2.r := fun x hx => hpos x.1 x.2 ((h3 x.1 x.2).1 hx)
    clear h1 h2 h3 h4 h5 h6 g1 g2 g3 g4 hlen
    induction l with
    | nil => simp
    | cons x l ih =>
      have ih := ih fun y hy => hp y (List.mem_cons_of_mem _ hy)
      have hx := hp x List.mem_cons_self
      rw [List.filter_cons]
      split
      · rw [List.map_cons, List.sum_cons, List.map_cons, List.sum_cons]; linarith
      · rw [List.map_cons, List.sum_cons]; linarith
  · have hsub : l'.length ≤ l.length := by
      rw [g2.length_eq]; exact List.length_filter_le _ _
    have a1 := List.length_filter_le (fun t : Nat × Tgt P => decide (rlim ≤ t.2.r)) l
    have a2 := List.length_filter_le (fun t : Nat × Tgt P => decide (rlim ≤ t.2.r)) l'
    rw [Nat.mod_eq_of_lt (by omega), Nat.mod_eq_of_lt (by omega), (g2.filter _).length_eq,
      List.filter_filter]
    apply List.Sublist.length_le
    apply List.monotone_filter_right
    intro x hx
    simp only [Bool.and_eq_true] at hx
    exact hx.1

example : ∃ F s, run exE exPrm F exCalls St.empty = some s ∧
    ∃ l, getAll s = some l ∧ enofTargets s = some (l.map fun t => t.2.r).sum := by
  obtain ⟨F, s, h⟩ := exRun
  obtain ⟨l, h1, _, _, h2, _⟩ := C30_queries_agree exE_box exPrm F exCalls exCalls_ok s
    (h F (le_refl _))
  exact ⟨F, s, h F (le_refl _), l, h1, h2⟩

/-! ## C31 -/

theorem bornOf_perm {S : Sensor P R} {prm : Params} {sum : ℝ} {reps : Nat → Rep R} {l l' : List Nat}
    (h : l.Perm l') : (bornOf S prm sum reps l).Perm (bornOf S prm sum reps l') :=
  h.filterMap _

/-- **C31** Two runs of `correct` from the same state that differ in the schedule of the clusters'
critical sections, in the order of the births and in the addresses of new objects: one is defined
iff the other is, the reports end up the same, the surviving targets are the same with the same
values and in the same order, the counter is the same, and the newborn targets are the same up to
order, ids and addresses.  If only the schedule of the clusters differs, heap and target list are
equal and the index holds the same entries. -/
theorem C31_order_independent {E : Env P R O} (hbox : BoxOk E) (prm : Params)
    (fuel : Nat) (calls : List (Call P R)) (hc : ∀ d ∈ calls, CallOk E d) (s : St P)
    (e : run E prm fuel calls St.empty = some s) (S : Sensor P R) (ch ch' : Choices)
    (scan : List (Rep R)) (dflt : Rep R) (hok : CallOk E (.correct S ch scan dflt))
    (hok' : CallOk E (.correct S ch' scan dflt)) (hpick : ch'.pick = ch.pick) (hwt : ch'.wt = ch.wt)
    (s1 : St P) (reps : Nat → Rep R)
    (e1 : correct E S prm ch fuel scan dflt s = some (s1, reps)) :
    ∃ s2, correct E S prm ch' fuel scan dflt s = some (s2, reps) ∧ s2.idc = s1.idc ∧
      (∃ old new new' b b', s1.targets = old ++ new ∧ s2.targets = old ++ new' ∧
        (∀ a ∈ old, s2.heap a = s1.heap a) ∧
        new.mapM (fun a => (s1.heap a).map fun t => (t.r, t.pdf, t.cid)) = some b ∧
        new'.mapM (fun a => (s2.heap a).map fun t => (t.r, t.pdf, t.cid)) = some b' ∧
        b.Perm b') ∧
      (ch'.ord = ch.ord → ch'.alloc = ch.alloc → s2.heap = s1.heap ∧ s2.targets = s1.targets ∧
        (items s2.tree).Perm (items s1.tree)) := by
  have hs := run_inv hbox (Inv.empty E) hc e
  obtain ⟨hf, hch, hz⟩ := hok
  obtain ⟨_, hch', _⟩ := hok'
  have i1 : Inv E s1 := step_inv hbox hs (c := .correct S ch scan dflt) ⟨hf, hch, hz⟩
      (prm := prm) (fuel := fuel) (by simp [step, e1])
  obtain ⟨cls, st, rcid, new, d1, _⟩ := correct_origin hbox hf hch hz hs e1
  obtain ⟨cls0, st0, rcid0, p1, p2, p3, p4, p5, p6, _⟩ := prepare_ok hbox hf hz hs.ok
  rw [d1.prep, Option.some.injEq, Prod.mk.injEq, Prod.mk.injEq] at p1
  obtain ⟨rfl, rfl, rfl⟩ := p1
  obtain ⟨cls', st', rcid', q1, ⟨⟨c, hcm, hn⟩, _⟩ | ⟨s2, reps2, new', e2, i2, d2⟩⟩ :=
    correct_spec hbox hf (prm := prm) hch' fuel hz dflt hs.ok hs.idc
  · rw [d1.prep, Option.some.injEq, Prod.mk.injEq, Prod.mk.injEq] at q1
    obtain ⟨rfl, rfl, rfl⟩ := q1
    obtain ⟨v, hv⟩ := d1.comps c hcm
    rw [hpick, hwt, hv] at hn
    cases hn
  · rw [d1.prep, Option.some.injEq, Prod.mk.injEq, Prod.mk.injEq] at q1
    obtain ⟨rfl, rfl, rfl⟩ := q1
    have hreps : reps2 = reps := by rw [d1.rep, d2.rep, hpick, hwt]
    subst hreps
    have hperm : (births S prm ch.ord cls scan.length reps2).Perm
        (births S prm ch'.ord cls scan.length reps2) := by
      unfold births
      cases rBsum scan.length reps2 with
      | none => exact List.Perm.refl _
      | some sum =>
        simp only
        split
        · exact bornOf_perm ((hch.ord _).trans (hch'.ord _).symm)
        · exact List.Perm.refl _
    have hlen : new'.length = new.length := by rw [d1.len, d2.len, hperm.length_eq]
    have hval : ∀ (ch : Choices) (s1 : St P) (new : List Nat),
        Done E S prm ch fuel scan dflt s s1 reps2 cls st rcid new →
        new.mapM (fun a => (s1.heap a).map fun t => (t.r, t.pdf, t.cid)) =
        some ((births S prm ch.ord cls scan.length reps2).map fun jx =>
          (min jx.2 prm.rBmax, S.init (reps2 jx.1).val, (reps2 jx.1).cid)) := by
      intro ch s1 new d
      have hl := d.len
      have hb := d.born
      generalize births S prm ch.ord cls scan.length reps2 = B at hl hb
      have : ∀ (new : List Nat) (B : List (Nat × ℝ)), new.length = B.length →
          (∀ (k : Nat) a j x, new[k]? = some a → B[k]? = some (j, x) → ∃ id la,
            s1.heap a = some ⟨id, min x prm.rBmax, S.init (reps2 j).val, (reps2 j).cid, la⟩) →
          new.mapM (fun a => (s1.heap a).map fun t => (t.r, t.pdf, t.cid)) =
          some (B.map fun jx => (min jx.2 prm.rBmax, S.init (reps2 jx.1).val, (reps2 jx.1).cid)) := by
        intro new
        induction new with
        | nil =>
          intro B hl _
          have : B = [] := List.length_eq_zero_iff.1 hl.symm
          subst this
          rfl
        | cons a new ih =>
          intro B hl hb
          cases B with
          | nil => simp at hl
          | cons jx B =>
            obtain ⟨id, la, h⟩ := hb 0 a jx.1 jx.2 rfl rfl
            have ih := ih B (by simpa using hl) fun k a' j x hk hx =>
              hb (k + 1) a' j x (by simpa using hk) (by simpa using hx)
            rw [List.mapM_cons, ih, h]
            rfl
      exact this new B hl fun k a j x hk hx => ⟨_, _, hb k a j x hk hx⟩
    have hold : ∀ a, a ∈ s.targets.filter (fun a => (finalHeap E S prm ch.pick fuel ch.wt st.heap
        (initReps scan rcid dflt) cls a).isSome) → a ∉ new ∧ a ∉ new' := by
      intro a ha
      have := (List.mem_filter.1 ha).2
      constructor
      · intro hn
        rw [d1.fresh a hn] at this
        simp at this
      · intro hn
        have h := d2.fresh a hn
        rw [hpick, hwt] at h
        rw [h] at this
        simp at this
    refine ⟨s2, e2, by rw [d1.idc, d2.idc, hlen], ?_, ?_⟩
    · refine ⟨_, new, new', _, _, d1.targets, by rw [d2.targets, hpick, hwt], ?_, hval ch s1 new d1,
        hval ch' s2 new' d2, hperm.map _⟩
      intro a ha
      obtain ⟨h1, h2⟩ := hold a ha
      rw [d1.old a h1, d2.old a h2, hpick, hwt]
    · intro ho hal
      -- the births run in the same order on the same heap
      have key : s2.heap = s1.heap ∧ s2.targets = s1.targets := by
        have c1 := e1
        have c2 := e2
        unfold correct at c1 c2
        simp only [d1.prep] at c1 c2
        cases g1 : clRun E S prm ch.pick fuel ch.wt cls (ch.sched cls)
          ⟨st, initReps scan rcid dflt, fun _ => 0⟩ with
        | none => simp [g1] at c1
        | some g =>
          cases g2 : clRun E S prm ch'.pick fuel ch'.wt cls (ch'.sched cls)
            ⟨st, initReps scan rcid dflt, fun _ => 0⟩ with
          | none => simp [g2] at c2
          | some g' =>
            simp only [g1] at c1
            simp only [g2, ho, hal] at c2
            rcases clRun_spec (E := E) hbox (S := S) (prm := prm) (pick := ch.pick) (fuel := fuel)
              (wt := ch.wt) p3 (reps0 := initReps scan rcid dflt) p2 (ch.sched cls)
              (hch.sched cls) with ⟨_, q⟩ | ⟨_, q, k1, k2, k3, k4, k5, k6⟩
            · rw [g1] at q; cases q
            rcases clRun_spec (E := E) hbox (S := S) (prm := prm) (pick := ch'.pick) (fuel := fuel)
              (wt := ch'.wt) p3 (reps0 := initReps scan rcid dflt) p2 (ch'.sched cls)
              (hch'.sched cls) with ⟨_, q'⟩ | ⟨_, q', l1, l2, l3, l4, l5, l6⟩
            · rw [g2] at q'; cases q'
            rw [g1] at k1
            rw [g2] at l1
            obtain rfl := Option.some.inj k1
            obtain rfl := Option.some.inj l1
            rw [hpick, hwt] at l4 l5 l6
            have hh : g'.st.heap = g.st.heap := l4.trans k4.symm
            have ht : g'.st.targets = g.st.targets := l5.trans k5.symm
            have hi : g'.st.idc = g.st.idc := l3.trans k3.symm
            have hr : g'.reps = g.reps := l6.trans k6.symm
            rw [hr] at c2
            -- births
            have loop : ∀ (l : List Nat) (sum : ℝ) (x y x' y' : St P), Ok E x (fun _ => False) →
                Ok E y (fun _ => False) → y.heap = x.heap → y.targets = x.targets → y.idc = x.idc →
                birthLoop E S prm ch.alloc sum g.reps l x = some x' →
                birthLoop E S prm ch.alloc sum g.reps l y = some y' →
                y'.heap = x'.heap ∧ y'.targets = x'.targets := by
              intro l
              induction l with
              | nil =>
                intro sum x y x' y' _ _ a1 a2 _ b1 b2
                simp only [birthLoop, Option.some.injEq] at b1 b2
                subst b1 b2
                exact ⟨a1, a2⟩
              | cons j l ih =>
                intro sum x y x' y' ox oy a1 a2 a3 b1 b2
                simp only [birthLoop] at b1 b2
                cases hb : (g.reps j).rB with
                | none =>
                  simp only [hb] at b1 b2
                  exact ih sum x y x' y' ox oy a1 a2 a3 b1 b2
                | some b =>
                  simp only [hb] at b1 b2
                  by_cases hlim : prm.rlim ≤ b * S.lambdaB / sum
                  · simp only [hlim, if_true] at b1 b2
                    obtain ⟨x1, m1, m2, m3, m4, m5, m6⟩ := newTarget_ok hbox hch.alloc ox
                      (min (b * S.lambdaB / sum) prm.rBmax) (S.init (g.reps j).val) (g.reps j).cid
                    obtain ⟨y1, n1, n2, n3, n4, n5, n6⟩ := newTarget_ok hbox hch.alloc oy
                      (min (b * S.lambdaB / sum) prm.rBmax) (S.init (g.reps j).val) (g.reps j).cid
                    simp only [m1] at b1
                    simp only [n1] at b2
                    exact ih sum x1 y1 x' y' m6 n6 (by rw [m3, n3, a1, a2, a3])
                      (by rw [m4, n4, a2]) (by rw [m5, n5, a3]) b1 b2
                  · simp only [hlim, if_false] at b1 b2
                    exact ih sum x y x' y' ox oy a1 a2 a3 b1 b2
            cases b1 : birth E S prm ch.alloc ch.ord cls scan.length g.reps g.st with
            | none => simp [b1] at c1
            | some x =>
              cases b2 : birth E S prm ch.alloc ch.ord cls scan.length g.reps g'.st with
              | none => simp [b2] at c2
              | some y =>
                simp only [b1, Option.some.injEq, Prod.mk.injEq] at c1
                simp only [b2, Option.some.injEq, Prod.mk.injEq] at c2
                obtain ⟨rfl, _⟩ := c1
                obtain ⟨rfl, _⟩ := c2
                unfold birth at b1 b2
                cases hsum : rBsum scan.length g.reps with
                | none =>
                  simp only [hsum, Option.some.injEq] at b1 b2
                  subst b1 b2
                  exact ⟨hh, ht⟩
                | some sum =>
                  simp only [hsum] at b1 b2
                  by_cases hle : prm.rlim ≤ sum
                  · simp only [hle, if_true] at b1 b2
                    exact loop _ sum g.st g'.st x y k2 l2 hh ht hi b1 b2
                  · simp only [hle, if_false, Option.some.injEq] at b1 b2
                    subst b1 b2
                    exact ⟨hh, ht⟩
      refine ⟨key.1, key.2, ?_⟩
      rw [List.perm_ext_iff_of_nodup (List.Nodup.of_map _ i2.inod) (List.Nodup.of_map _ i1.ok.inod)]
      rintro ⟨r, a⟩
      rw [i2.imem, i1.ok.imem, key.1, key.2]

/-- A different schedule for the example: all first critical sections, then all computations, then
all second critical sections, with the clusters in reverse. -/
noncomputable def exCh' : Choices :=
  { exCh with sched := fun cls =>
      (List.range cls.length).reverse ++ List.range cls.length ++ (List.range cls.length).reverse }

theorem exCh'_ok : ChOk exCh' := by
  refine ⟨?_, exCh_ok.ord, exCh_ok.alloc⟩
  intro cls i
  show ((List.range cls.length).reverse ++ List.range cls.length ++
    (List.range cls.length).reverse).count i = _
  rw [List.count_append, List.count_append, List.count_reverse]
  by_cases h : i < cls.length
  · rw [List.count_eq_one_of_mem List.nodup_range (List.mem_range.2 h), if_pos h]
  · rw [List.count_eq_zero_of_not_mem (fun hm => h (List.mem_range.1 hm)), if_neg h]

example : ∃ (F : Nat) (s s1 s2 : St ℚ) (reps : Nat → Rep ℚ),
    correct exE exS exPrm exCh F exScan ⟨0, none, 0⟩ s = some (s1, reps) ∧
    correct exE exS exPrm exCh' F exScan ⟨0, none, 0⟩ s = some (s2, reps) ∧ s2.heap = s1.heap := by
  obtain ⟨F, s, s1, reps, h1, h2⟩ := exCorrect
  obtain ⟨s2, h3, _, _, h4⟩ := C31_order_independent exE_box exPrm F _ exTake_ok s h1 exS exCh exCh'
    exScan _ exOk ⟨exS_fov, exCh'_ok, fun z _ => exE_rbox _⟩ rfl rfl s1 reps h2
  exact ⟨F, s, s1, s2, reps, h2, h3, (h4 rfl rfl).1⟩

end Verif.Tracker

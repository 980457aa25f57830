import Verif.Tracker.Loop
import Verif.Cluster.Props

/-! # What one call of `predict` and of `correct` does -/

namespace Verif.Tracker

open Verif.RTree (Rect WF items)
open Verif.Cluster (Cl)
open Verif.Hyp Verif.Lap Verif.Murty

variable {P R O : Type}

/-! ## `predict` -/

theorem predict_spec {E : Env P R O} (hbox : BoxOk E) (prm : Params) (m : Motion P)
    {ord : List Nat → List Nat} (hord : ∀ l, (ord l).Perm l) {s : St P}
    (hs : Ok E s fun _ => False) :
    ∃ s', predict E prm m ord s = some s' ∧ Ok E s' (fun _ => False) ∧ s'.idc = s.idc ∧
      (∀ a, s'.heap a = ((s.heap a).map (predictTgt E m)).filter fun t => viable E prm t) ∧
      s'.targets = s.targets.filter fun a => (s'.heap a).isSome := by
  classical
  have hperm := hord s.targets
  have h1 : Ok E (removeAll s) fun _ => True := by
    refine ⟨RTree.wf_empty, hs.nodup, hs.live, ?_, ?_⟩
    · simp [removeAll, RTree.items_empty]
    · intro r a; simp [removeAll, RTree.items_empty]
  have e1 := predictLoop_spec E m (ord s.targets) (removeAll s) (hperm.nodup_iff.2 hs.nodup)
    (fun a ha => (hs.live a).2 (hperm.mem_iff.1 ha))
  have hheap : ∀ a, (if a ∈ ord s.targets then ((removeAll s).heap a).map (predictTgt E m)
      else (removeAll s).heap a) = (s.heap a).map (predictTgt E m) := by
    intro a
    show (if a ∈ ord s.targets then (s.heap a).map (predictTgt E m) else s.heap a) = _
    split
    · rfl
    · rename_i ha
      have : s.heap a = none := by
        cases hh : s.heap a with
        | none => rfl
        | some t => exact absurd (hperm.mem_iff.2 ((hs.live a).1 ⟨t, hh⟩)) ha
      rw [this]; rfl
  have h2 : Ok E ({ removeAll s with heap := fun a => (s.heap a).map (predictTgt E m) } : St P)
      fun _ => True := by
    refine ⟨h1.wf, h1.nodup, ?_, h1.inod, ?_⟩
    · intro a
      have := hs.live a
      simp only [Option.map_eq_some_iff, removeAll]
      rw [← this]
      constructor
      · rintro ⟨t, u, hu, _⟩; exact ⟨u, hu⟩
      · rintro ⟨u, hu⟩; exact ⟨_, u, hu, rfl⟩
    · intro r a; simp [removeAll, RTree.items_empty]
  obtain ⟨s', f1, f2, f3, f4, f5⟩ := settle_ok hbox prm s.targets h2 hs.nodup
    (fun a ha => ⟨ha, trivial⟩)
  have hfin : ∀ a, s'.heap a = ((s.heap a).map (predictTgt E m)).filter fun t => viable E prm t := by
    intro a
    rw [f2, settleHeap]
    split
    · rfl
    · rename_i ha
      have : s.heap a = none := by
        cases hh : s.heap a with
        | none => rfl
        | some t => exact absurd ((hs.live a).1 ⟨t, hh⟩) ha
      simp [this]
  refine ⟨s', ?_, f5.congr ?_, f4, hfin, ?_⟩
  · unfold predict
    rw [e1]
    simp only [hheap]
    exact f1
  · intro a ha
    rw [f3] at ha
    have := (List.mem_filter.1 ha).1
    simp only [true_and, iff_false, not_not]
    exact this
  · rw [f3, f2]
    rfl

/-! ## Everything before the parallel loop -/

/-- The targets that a scan reaches: in the field of view, or box touched by that of a report. -/
def Gated (E : Env P R O) (S : Sensor P R) (scan : List (Rep R)) (s : St P) (a : Nat) : Prop :=
  ∃ t, s.heap a = some t ∧ ((S.fovBox.Touch (E.box t.pdf) ∧ S.inView t.pdf = true) ∨
    ∃ z ∈ scan, (E.rbox z.val).Touch (E.box t.pdf))

theorem getTargets_ok {E : Env P R O} (hbox : BoxOk E) {S : Sensor P R}
    (hf : S.fovBox.Valid) {s : St P} (hs : Ok E s fun _ => False) :
    ∃ all, getTargets S s = some all ∧ all.Nodup ∧ ∀ a, a ∈ all ↔
      ∃ t, s.heap a = some t ∧ S.fovBox.Touch (E.box t.pdf) ∧ S.inView t.pdf = true := by
  obtain ⟨l, h1, h2, h3⟩ := query_ok hbox hs S.fovBox hf
  obtain ⟨ts, h4⟩ := readAll_some (h := s.heap) (l := l) (fun a ha => by
    obtain ⟨_, _, t, ht, _⟩ := (h3 a).1 ha
    exact ⟨t, ht⟩)
  obtain ⟨h5, h6⟩ := readAll_spec h4
  refine ⟨(ts.filter fun t => S.inView t.2.pdf).map (·.1), ?_, ?_, ?_⟩
  · simp only [getTargets, h1, h4]
  · have : ((ts.filter fun t => S.inView t.2.pdf).map (·.1)).Sublist l := by
      rw [← h5]; exact List.filter_sublist.map _
    exact this.nodup h2
  · intro a
    rw [List.mem_map]
    constructor
    · rintro ⟨x, hx, rfl⟩
      rw [List.mem_filter] at hx
      have hm : x.1 ∈ l := by rw [← h5]; exact List.mem_map_of_mem hx.1
      obtain ⟨_, _, t, ht, htouch⟩ := (h3 x.1).1 hm
      have := h6 x hx.1
      rw [ht] at this
      injection this with this
      subst this
      exact ⟨_, ht, htouch, hx.2⟩
    · rintro ⟨t, ht, h7, h8⟩
      have hm : a ∈ l := (h3 a).2 ⟨(hs.live a).1 ⟨t, ht⟩, fun h => h, t, ht, h7⟩
      rw [← h5, List.mem_map] at hm
      obtain ⟨x, hx, rfl⟩ := hm
      have := h6 x hx
      rw [ht] at this
      injection this with this
      subst this
      exact ⟨x, List.mem_filter.2 ⟨hx, h8⟩, rfl⟩

theorem queries_ok {E : Env P R O} (hbox : BoxOk E) {s : St P}
    (hs : Ok E s fun _ => False) (l : List R) (hl : ∀ v ∈ l, (E.rbox v).Valid) :
    ∃ qs, queries E s l = some qs ∧ qs.length = l.length ∧
      ∀ (k : Nat) v, l[k]? = some v → ∃ q, qs[k]? = some q ∧ q.Nodup ∧ ∀ a, a ∈ q ↔
        ∃ t, s.heap a = some t ∧ (E.rbox v).Touch (E.box t.pdf) := by
  induction l with
  | nil => exact ⟨[], rfl, rfl, by simp⟩
  | cons v l ih =>
    obtain ⟨qs, h1, h2, h3⟩ := ih fun w hw => hl w (List.mem_cons_of_mem _ hw)
    obtain ⟨q, g1, g2, g3⟩ := query_ok hbox hs (E.rbox v) (hl v List.mem_cons_self)
    refine ⟨q :: qs, by simp only [queries, g1, h1], by simp [h2], ?_⟩
    intro k w hk
    cases k with
    | zero =>
      simp only [List.getElem?_cons_zero, Option.some.injEq] at hk
      subst hk
      refine ⟨q, rfl, g2, fun a => ?_⟩
      rw [g3]
      constructor
      · rintro ⟨_, _, h⟩; exact h
      · rintro ⟨t, ht, h⟩; exact ⟨(hs.live a).1 ⟨t, ht⟩, fun h => h, t, ht, h⟩
    | succ k =>
      rw [List.getElem?_cons_succ] at hk ⊢
      exact h3 k w hk

open Classical in
theorem writeCids_ok (tcid : Nat → Nat) (l : List Nat) (h : Nat → Option (Tgt P)) (hnd : l.Nodup)
    (hl : ∀ a ∈ l, ∃ t, h a = some t) :
    writeCids h tcid l = some fun a =>
      if a ∈ l then (h a).map (fun t => { t with cid := tcid a }) else h a := by
  induction l generalizing h with
  | nil => simp [writeCids]
  | cons a l ih =>
    rw [List.nodup_cons] at hnd
    obtain ⟨t, ht⟩ := hl a List.mem_cons_self
    simp only [writeCids, ht]
    rw [ih _ hnd.2 (by
      intro b hb
      have : b ≠ a := by rintro rfl; exact hnd.1 hb
      simp only [setHeap, this, if_false]
      exact hl b (List.mem_cons_of_mem _ hb))]
    congr 1
    funext b
    by_cases hb : b = a
    · subst hb; simp [hnd.1, setHeap, ht]
    · simp [hb, setHeap]

/-- Two targets that differ at most in `cid`. -/
def SameBut (t u : Tgt P) : Prop := u.id = t.id ∧ u.r = t.r ∧ u.pdf = t.pdf ∧ u.la = t.la

theorem prepare_ok {E : Env P R O} (hbox : BoxOk E) {S : Sensor P R}
    (hf : S.fovBox.Valid) {scan : List (Rep R)} (hz : ∀ z ∈ scan, (E.rbox z.val).Valid) {s : St P}
    (hs : Ok E s fun _ => False) :
    ∃ cls s1 rcid, prepare E S scan s = some (cls, s1, rcid) ∧ ClOk s1 cls ∧
      Ok E s1 (fun _ => False) ∧ s1.targets = s.targets ∧ s1.idc = s.idc ∧
      (cls.flatMap Cl.reports).Perm (List.range scan.length) ∧
      (∀ a, (∃ c ∈ cls, a ∈ c.targets) ↔ Gated E S scan s a) ∧
      (∀ a, ¬ Gated E S scan s a → s1.heap a = s.heap a) ∧
      (∀ a t, s.heap a = some t → ∃ u, s1.heap a = some u ∧ SameBut t u) ∧
      (∀ a u, s1.heap a = some u → ∃ t, s.heap a = some t ∧ SameBut t u) := by
  classical
  obtain ⟨all, a1, a2, a3⟩ := getTargets_ok hbox hf hs
  obtain ⟨qs, q1, q2, q3⟩ := queries_ok hbox hs (scan.map Rep.val) (by
    intro v hv
    obtain ⟨z, hz', rfl⟩ := List.mem_map.1 hv
    exact hz z hz')
  obtain ⟨st, c1, c2, c3, c4⟩ := Cluster.C10_clusters_cover (fun r => qs.getD r []) scan.length all a2
    (fun j => (scan[j]?.map Rep.cid).getD 0) (fun a => ((s.heap a).map Tgt.cid).getD 0)
  have hgate : ∀ a, a ∈ st.clusters.flatMap Cl.targets ↔ Gated E S scan s a := by
    intro a
    rw [c4, a3]
    constructor
    · rintro (⟨t, h1, h2, h3⟩ | ⟨r, hr, ha⟩)
      · exact ⟨t, h1, Or.inl ⟨h2, h3⟩⟩
      · obtain ⟨q, h1, _, h2⟩ := q3 r scan[r].val (by
          rw [List.getElem?_map, List.getElem?_eq_getElem hr]; rfl)
        rw [List.getD_eq_getElem?_getD, h1, Option.getD_some, h2] at ha
        obtain ⟨t, ht, htouch⟩ := ha
        exact ⟨t, ht, Or.inr ⟨scan[r], List.getElem_mem hr, htouch⟩⟩
    · rintro ⟨t, h1, ⟨h2, h3⟩ | ⟨z, hz', htouch⟩⟩
      · exact Or.inl ⟨t, h1, h2, h3⟩
      · obtain ⟨r, hr, rfl⟩ := List.mem_iff_getElem.1 hz'
        obtain ⟨q, h5, _, h6⟩ := q3 r scan[r].val (by
          rw [List.getElem?_map, List.getElem?_eq_getElem hr]; rfl)
        refine Or.inr ⟨r, hr, ?_⟩
        rw [List.getD_eq_getElem?_getD, h5, Option.getD_some, h6]
        exact ⟨t, h1, htouch⟩
  have hlive : ∀ a ∈ st.clusters.flatMap Cl.targets, ∃ t, s.heap a = some t := by
    intro a ha
    obtain ⟨t, ht, _⟩ := (hgate a).1 ha
    exact ⟨t, ht⟩
  have hw := writeCids_ok st.tcid (st.clusters.flatMap Cl.targets) s.heap c3 hlive
  set h' : Nat → Option (Tgt P) := fun a => if a ∈ st.clusters.flatMap Cl.targets then
    (s.heap a).map (fun t => { t with cid := st.tcid a }) else s.heap a with hh'
  have hsame : ∀ a t, s.heap a = some t → ∃ u, h' a = some u ∧ SameBut t u := by
    intro a t ht
    by_cases ha : a ∈ st.clusters.flatMap Cl.targets
    · exact ⟨{ t with cid := st.tcid a }, by simp only [hh', if_pos ha, ht, Option.map_some],
        rfl, rfl, rfl, rfl⟩
    · exact ⟨t, by simp only [hh', if_neg ha, ht], rfl, rfl, rfl, rfl⟩
  have hsame' : ∀ a u, h' a = some u → ∃ t, s.heap a = some t ∧ SameBut t u := by
    intro a u hu
    cases ht : s.heap a with
    | none =>
      simp only [hh', ht, Option.map_none] at hu
      split at hu <;> cases hu
    | some t =>
      obtain ⟨u', h1, h2⟩ := hsame a t ht
      rw [hu] at h1
      injection h1 with h1
      subst h1
      exact ⟨t, rfl, h2⟩
  refine ⟨st.clusters, { s with heap := h' }, st.rcid, ?_, ⟨c3, ?_, ?_⟩, ⟨hs.wf, hs.nodup, ?_,
    hs.inod, ?_⟩, rfl, rfl, c2, ?_, ?_, hsame, hsame'⟩
  · simp only [prepare, a1, q1, c1, hw]
  · exact c2.nodup_iff.2 List.nodup_range
  · intro c hc a ha
    exact (hs.live a).1 (hlive a (List.mem_flatMap.2 ⟨c, hc, ha⟩))
  · intro a
    show (∃ t, h' a = some t) ↔ a ∈ s.targets
    rw [← hs.live a]
    constructor
    · rintro ⟨u, hu⟩
      obtain ⟨t, ht, _⟩ := hsame' a u hu
      exact ⟨t, ht⟩
    · rintro ⟨t, ht⟩
      obtain ⟨u, hu, _⟩ := hsame a t ht
      exact ⟨u, hu⟩
  · intro r a
    rw [hs.imem]
    apply and_congr_right
    intro _
    apply and_congr_right
    intro _
    show _ ↔ ∃ t, h' a = some t ∧ r = E.box t.pdf
    constructor
    · rintro ⟨t, ht, hr⟩
      obtain ⟨u, hu, h1, h2, h3, _⟩ := hsame a t ht
      exact ⟨u, hu, by rw [h3]; exact hr⟩
    · rintro ⟨u, hu, hr⟩
      obtain ⟨t, ht, h1, h2, h3, _⟩ := hsame' a u hu
      exact ⟨t, ht, by rw [← h3]; exact hr⟩
  · intro a
    rw [← hgate, List.mem_flatMap]
  · intro a ha
    rw [← hgate] at ha
    show h' a = s.heap a
    simp only [hh', if_neg ha]

/-! ## Birth -/

open Classical in
/-- The births a list of reports gives: report index and uncapped probability. -/
noncomputable def bornOf (S : Sensor P R) (prm : Params) (sum : ℝ) (reps : Nat → Rep R)
    (l : List Nat) : List (Nat × ℝ) :=
  l.filterMap fun j =>
    match (reps j).rB with
    | none => none
    | some b => if prm.rlim ≤ b * S.lambdaB / sum then some (j, b * S.lambdaB / sum) else none

theorem birthLoop_ok {E : Env P R O} (hbox : BoxOk E) {S : Sensor P R} {prm : Params}
    {alloc : List Nat → Nat} (hal : ∀ l, alloc l ∉ l) (sum : ℝ) (reps : Nat → Rep R) (l : List Nat)
    {s : St P} (hs : Ok E s fun _ => False) (hid : s.idc < 2 ^ 32) :
    ∃ s' new, birthLoop E S prm alloc sum reps l s = some s' ∧ Ok E s' (fun _ => False) ∧
      s'.targets = s.targets ++ new ∧ new.length = (bornOf S prm sum reps l).length ∧
      s'.idc = (s.idc + new.length) % 2 ^ 32 ∧
      (∀ a ∉ new, s'.heap a = s.heap a) ∧ (∀ a ∈ new, s.heap a = none) ∧
      ∀ (k : Nat) a j x, new[k]? = some a → (bornOf S prm sum reps l)[k]? = some (j, x) →
        s'.heap a = some ⟨(s.idc + k) % 2 ^ 32, min x prm.rBmax, S.init (reps j).val,
          (reps j).cid, 'i'⟩ := by
  classical
  induction l generalizing s with
  | nil =>
    refine ⟨s, [], rfl, hs, by simp, by simp [bornOf], ?_, by simp, by simp, by simp⟩
    rw [List.length_nil, Nat.add_zero, Nat.mod_eq_of_lt hid]
  | cons j l ih =>
    cases hb : (reps j).rB with
    | none =>
      have e : bornOf S prm sum reps (j :: l) = bornOf S prm sum reps l := by
        simp [bornOf, hb]
      rw [e]
      simp only [birthLoop, hb]
      exact ih hs hid
    | some b =>
      by_cases hlim : prm.rlim ≤ b * S.lambdaB / sum
      · have e : bornOf S prm sum reps (j :: l) =
            (j, b * S.lambdaB / sum) :: bornOf S prm sum reps l := by
          simp [bornOf, hb, hlim]
        obtain ⟨s1, h1, h2, h3, h4, h5, h6⟩ := newTarget_ok hbox hal hs
          (min (b * S.lambdaB / sum) prm.rBmax) (S.init (reps j).val) (reps j).cid
        have hid1 : s1.idc < 2 ^ 32 := by rw [h5]; exact Nat.mod_lt _ (by positivity)
        obtain ⟨s', new, g1, g2, g3, g4, g5, g6, g7, g8⟩ := ih h6 hid1
        have hne : alloc s.targets ∉ new := by
          intro hm
          have := g7 _ hm
          rw [h3] at this
          simp [setHeap] at this
        refine ⟨s', alloc s.targets :: new, ?_, g2, ?_, ?_, ?_, ?_, ?_, ?_⟩
        · simp only [birthLoop, hb, if_pos hlim, h1]; exact g1
        · rw [g3, h4]; simp
        · rw [e]; simp [g4]
        · rw [g5, h5, List.length_cons]; omega
        · intro a ha
          rw [List.mem_cons, not_or] at ha
          rw [g6 a ha.2, h3]; simp [setHeap, ha.1]
        · intro a ha
          rcases List.mem_cons.1 ha with rfl | ha
          · exact h2
          · have := g7 a ha
            rw [h3] at this
            have hna : a ≠ alloc s.targets := by rintro rfl; exact hne ha
            simpa [setHeap, hna] using this
        · intro k a j' x hk hx
          rw [e] at hx
          cases k with
          | zero =>
            simp only [List.getElem?_cons_zero, Option.some.injEq] at hk hx
            subst hk
            obtain ⟨rfl, rfl⟩ := Prod.mk.inj hx
            rw [g6 _ hne, h3]
            simp only [setHeap, if_true, Nat.add_zero]
            rw [Nat.mod_eq_of_lt hid]
          | succ k =>
            rw [List.getElem?_cons_succ] at hk hx
            rw [g8 k a j' x hk hx, h5]
            congr 2
            omega
      · have e : bornOf S prm sum reps (j :: l) = bornOf S prm sum reps l := by
          simp [bornOf, hb, hlim]
        rw [e]
        simp only [birthLoop, hb, if_neg hlim]
        exact ih hs hid

open Classical in
/-- The births of a scan. -/
noncomputable def births (S : Sensor P R) (prm : Params) (ord : List Nat → List Nat)
    (cls : List Cl) (n : Nat) (reps : Nat → Rep R) : List (Nat × ℝ) :=
  match rBsum n reps with
  | none => []
  | some sum =>
    if prm.rlim ≤ sum then bornOf S prm sum reps (ord (cls.flatMap Cl.reports)) else []

theorem birth_ok {E : Env P R O} (hbox : BoxOk E) {S : Sensor P R} {prm : Params}
    {alloc : List Nat → Nat} (hal : ∀ l, alloc l ∉ l) (ord : List Nat → List Nat) (cls : List Cl)
    (n : Nat) (reps : Nat → Rep R)
    {s : St P} (hs : Ok E s fun _ => False) (hid : s.idc < 2 ^ 32) :
    ∃ s' new, birth E S prm alloc ord cls n reps s = some s' ∧ Ok E s' (fun _ => False) ∧
      s'.targets = s.targets ++ new ∧ new.length = (births S prm ord cls n reps).length ∧
      s'.idc = (s.idc + new.length) % 2 ^ 32 ∧
      (∀ a ∉ new, s'.heap a = s.heap a) ∧ (∀ a ∈ new, s.heap a = none) ∧
      ∀ (k : Nat) a j x, new[k]? = some a → (births S prm ord cls n reps)[k]? = some (j, x) →
        s'.heap a = some ⟨(s.idc + k) % 2 ^ 32, min x prm.rBmax, S.init (reps j).val,
          (reps j).cid, 'i'⟩ := by
  have triv : ∃ s' new, some s = some s' ∧ Ok E s' (fun _ => False) ∧
      s'.targets = s.targets ++ new ∧ new.length = ([] : List (Nat × ℝ)).length ∧
      s'.idc = (s.idc + new.length) % 2 ^ 32 ∧
      (∀ a ∉ new, s'.heap a = s.heap a) ∧ (∀ a ∈ new, s.heap a = none) ∧
      ∀ (k : Nat) a j x, new[k]? = some a → ([] : List (Nat × ℝ))[k]? = some (j, x) →
        s'.heap a = some ⟨(s.idc + k) % 2 ^ 32, min x prm.rBmax, S.init (reps j).val,
          (reps j).cid, 'i'⟩ := by
    refine ⟨s, [], rfl, hs, by simp, rfl, ?_, by simp, by simp, by simp⟩
    rw [List.length_nil, Nat.add_zero, Nat.mod_eq_of_lt hid]
  unfold birth births
  cases rBsum n reps with
  | none => exact triv
  | some sum =>
    simp only
    split
    · exact birthLoop_ok hbox hal sum reps _ hs hid
    · exact triv

/-! ## `correct` -/

/-- The choices made outside the program are possible ones. -/
structure ChOk (ch : Choices) : Prop where
  sched : ∀ cls, Complete cls (ch.sched cls)
  ord : ∀ l, (ch.ord l).Perm l
  alloc : ∀ l, ch.alloc l ∉ l

/-- Everything that one call of `correct` does, in terms of what the clusters compute. -/
structure Done (E : Env P R O) (S : Sensor P R) (prm : Params) (ch : Choices) (fuel : Nat)
    (scan : List (Rep R)) (dflt : Rep R) (s : St P) (s2 : St P) (reps : Nat → Rep R)
    (cls : List Cl) (s1 : St P) (rcid : Nat → Nat) (new : List Nat) : Prop where
  prep : prepare E S scan s = some (cls, s1, rcid)
  comps : ∀ c ∈ cls, ∃ v, compOf E S prm ch.pick fuel ch.wt s1.heap (initReps scan rcid dflt) c =
    some v
  rep : reps = finalReps E S prm ch.pick fuel ch.wt s1.heap (initReps scan rcid dflt) cls
  targets : s2.targets = (s.targets.filter fun a =>
    (finalHeap E S prm ch.pick fuel ch.wt s1.heap (initReps scan rcid dflt) cls a).isSome) ++ new
  old : ∀ a ∉ new, s2.heap a =
    finalHeap E S prm ch.pick fuel ch.wt s1.heap (initReps scan rcid dflt) cls a
  fresh : ∀ a ∈ new,
    finalHeap E S prm ch.pick fuel ch.wt s1.heap (initReps scan rcid dflt) cls a = none
  len : new.length = (births S prm ch.ord cls scan.length reps).length
  idc : s2.idc = (s.idc + new.length) % 2 ^ 32
  born : ∀ (k : Nat) a j x, new[k]? = some a →
    (births S prm ch.ord cls scan.length reps)[k]? = some (j, x) →
    s2.heap a = some ⟨(s.idc + k) % 2 ^ 32, min x prm.rBmax, S.init (reps j).val,
      (reps j).cid, 'i'⟩

theorem correct_spec {E : Env P R O} (hbox : BoxOk E) {S : Sensor P R}
    (hf : S.fovBox.Valid) {prm : Params} {ch : Choices} (hch : ChOk ch) (fuel : Nat)
    {scan : List (Rep R)} (hz : ∀ z ∈ scan, (E.rbox z.val).Valid) (dflt : Rep R) {s : St P}
    (hs : Ok E s fun _ => False) (hid : s.idc < 2 ^ 32) :
    ∃ cls s1 rcid, prepare E S scan s = some (cls, s1, rcid) ∧
      (((∃ c ∈ cls, compOf E S prm ch.pick fuel ch.wt s1.heap (initReps scan rcid dflt) c = none) ∧
        correct E S prm ch fuel scan dflt s = none) ∨
      ∃ s2 reps new, correct E S prm ch fuel scan dflt s = some (s2, reps) ∧
        Ok E s2 (fun _ => False) ∧
        Done E S prm ch fuel scan dflt s s2 reps cls s1 rcid new) := by
  obtain ⟨cls, s1, rcid, p1, p2, p3, p4, p5, _⟩ := prepare_ok hbox hf hz hs
  refine ⟨cls, s1, rcid, p1, ?_⟩
  rcases clRun_spec (E := E) hbox (S := S) (prm := prm) (pick := ch.pick) (fuel := fuel)
    (wt := ch.wt) p3 (reps0 := initReps scan rcid dflt) p2 (ch.sched cls) (hch.sched cls) with
    ⟨h1, h2⟩ | ⟨h1, g, h2, h3, h4, h5, h6, h7⟩
  · left
    exact ⟨h1, by simp only [correct, p1, h2]⟩
  · right
    obtain ⟨s2, new, b1, b2, b3, b4, b5, b6, b7, b8⟩ := birth_ok (E := E) hbox (S := S) (prm := prm)
      hch.alloc ch.ord cls scan.length g.reps h3 (by rw [h4, p5]; exact hid)
    refine ⟨s2, g.reps, new, by simp only [correct, p1, h2, b1], b2, ⟨p1, h1, h7, ?_, ?_, ?_, b4, ?_, ?_⟩⟩
    · rw [b3, h6, p4]
    · intro a ha; rw [b6 a ha, h5]
    · intro a ha; rw [← h5]; exact b7 a ha
    · rw [b5, h4, p5]
    · rw [h4, p5] at b8; exact b8

end Verif.Tracker

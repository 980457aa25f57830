import Verif.Tracker.Defined
import Verif.System.Fuel

/-!
# C95: the statistics of the clusters

`cluster_ntargets`, `cluster_nreports`, `cluster_nhyps` and `nof_clusters`
(`include/lmb.hpp:43-46,120-130,445`), the numbers a program reads after `correct`, and the cluster ids
of targets and reports.
-/

namespace Verif.Tracker

open Verif.RTree (Rect)
open Verif.Cluster (Cl)
open Verif.Hyp Verif.Lap Verif.Murty

variable {P R O : Type}

/-! ## Model -/

/-- The public fields `lmb.hpp:43-46`. -/
structure Stats where
  nof : Nat
  ntargets : List Nat
  nreports : List Nat
  nhyps : List Nat

/-- `resize`, `lmb.hpp:120-122`: what is there stays, new elements are zero. -/
def resize (k : Nat) (l : List Nat) : List Nat := l.take k ++ List.replicate (k - l.length) 0

/-- Assignment to an element, `lmb.hpp:126-127,129`; undefined outside the vector. -/
def put (l : List Nat) (i x : Nat) : Option (List Nat) :=
  if i < l.length then some (l.set i x) else none

/-- The parallel loop with the fields it writes: `n` holds the member `n` of the clusters
(`cluster.hpp:26,40,103`). -/
structure SCfg (P R : Type) where
  cfg : Cfg P R
  n : Nat → Nat
  stat : Stats

/-- One step of cluster `i`, `lmb.hpp:125-130`: the sizes are written before `c->correct`, the number of
hypotheses after it. -/
noncomputable def statStep (E : Env P R O) (S : Sensor P R) (prm : Params)
    (pick : ∀ r c, List (Node r c) → Nat) (fuel : Nat) (wt : ℚ → ℝ) (cls : List Cl) (i : Nat)
    (g : SCfg P R) : Option (SCfg P R) :=
  match cls[i]?, clStep E S prm pick fuel wt cls i g.cfg with
  | some c, some cfg =>
    match g.cfg.pc i with
    | 0 =>
      match put g.stat.ntargets c.id c.targets.length, put g.stat.nreports c.id c.reports.length with
      | some a, some b => some ⟨cfg, g.n, { g.stat with ntargets := a, nreports := b }⟩
      | _, _ => none
    | 1 =>
      match readAll g.cfg.st.heap c.targets with
      | none => none
      | some ts =>
        match compute E S prm pick fuel wt ts (c.reports.map fun j => (g.cfg.reps j).val) with
        | none => none
        | some v => some ⟨cfg, fun k => if k = i then v.n else g.n k, g.stat⟩
    | _ =>
      match put g.stat.nhyps c.id (g.n i) with
      | some a => some ⟨cfg, g.n, { g.stat with nhyps := a }⟩
      | none => none
  | _, _ => none

/-- The parallel loop `lmb.hpp:124-130` under a schedule. -/
noncomputable def statRun (E : Env P R O) (S : Sensor P R) (prm : Params)
    (pick : ∀ r c, List (Node r c) → Nat) (fuel : Nat) (wt : ℚ → ℝ) (cls : List Cl) :
    List Nat → SCfg P R → Option (SCfg P R)
  | [], g => some g
  | i :: l, g =>
    match statStep E S prm pick fuel wt cls i g with
    | none => none
    | some g' => statRun E S prm pick fuel wt cls l g'

/-- `nof_clusters = cid`, `lmb.hpp:445`. -/
def clusterCount (E : Env P R O) (S : Sensor P R) (scan : List (Rep R)) (s : St P) : Option Nat :=
  match getTargets S s, queries E s (scan.map Rep.val) with
  | some all, some qs =>
    (Cluster.cluster (fun r => qs.getD r []) scan.length all
      (fun j => (scan[j]?.map Rep.cid).getD 0) (fun a => ((s.heap a).map Tgt.cid).getD 0)).map (·.cid)
  | _, _ => none

/-- `correct`, `lmb.hpp:94-134`, with the fields it writes. -/
noncomputable def correctS (E : Env P R O) (S : Sensor P R) (prm : Params) (ch : Choices)
    (fuel : Nat) (scan : List (Rep R)) (dflt : Rep R) (st : Stats) (s : St P) :
    Option ((St P × (Nat → Rep R)) × Stats) :=
  match prepare E S scan s, clusterCount E S scan s with
  | some (cls, s1, rcid), some k =>
    match statRun E S prm ch.pick fuel ch.wt cls (ch.sched cls)
        ⟨⟨s1, initReps scan rcid dflt, fun _ => 0⟩, fun _ => 0,
          ⟨k, resize cls.length st.ntargets, resize cls.length st.nreports,
            resize cls.length st.nhyps⟩⟩ with
    | none => none
    | some g =>
      match birth E S prm ch.alloc ch.ord cls scan.length g.cfg.reps g.cfg.st with
      | none => none
      | some s2 => some ((s2, g.cfg.reps), g.stat)
  | _, _ => none

/-- What Python's `cluster_nhyps` reads, `lmb.cpp:207`. -/
def pyClusterNhyps (st : Stats) : List Nat := st.nreports

/-! ## The loop -/

theorem resize_length (k : Nat) (l : List Nat) : (resize k l).length = k := by
  simp only [resize, List.length_append, List.length_take, List.length_replicate]
  omega

/-- Invariant of the fields. -/
structure SInv (E : Env P R O) (S : Sensor P R) (prm : Params)
    (pick : ∀ r c, List (Node r c) → Nat) (fuel : Nat) (wt : ℚ → ℝ) (s0 : St P)
    (reps0 : Nat → Rep R) (cls : List Cl) (k : Nat) (g : SCfg P R) : Prop where
  nof : g.stat.nof = k
  lt : g.stat.ntargets.length = cls.length
  lr : g.stat.nreports.length = cls.length
  lh : g.stat.nhyps.length = cls.length
  size : ∀ (i : Nat) (c : Cl), cls[i]? = some c → 1 ≤ g.cfg.pc i →
    g.stat.ntargets[i]? = some c.targets.length ∧ g.stat.nreports[i]? = some c.reports.length
  n : ∀ (i : Nat) (c : Cl), cls[i]? = some c → 2 ≤ g.cfg.pc i →
    ∃ v, compOf E S prm pick fuel wt s0.heap reps0 c = some v ∧ g.n i = v.n
  hyp : ∀ (i : Nat) (c : Cl), cls[i]? = some c → 3 ≤ g.cfg.pc i →
    ∃ v, compOf E S prm pick fuel wt s0.heap reps0 c = some v ∧ g.stat.nhyps[i]? = some v.n

theorem statStep_ok {E : Env P R O} {S : Sensor P R} {prm : Params}
    {pick : ∀ r c, List (Node r c) → Nat} {fuel : Nat} {wt : ℚ → ℝ} {s0 : St P}
    {reps0 : Nat → Rep R} {cls : List Cl} {k : Nat}
    (hid : ∀ (i : Nat) (c : Cl), cls[i]? = some c → c.id = i) {g : SCfg P R}
    (hl : LInv E S prm pick fuel wt s0 reps0 cls g.cfg)
    (hg : SInv E S prm pick fuel wt s0 reps0 cls k g) {i : Nat} {c : Cl} (hi : cls[i]? = some c)
    {cfg : Cfg P R} (e : clStep E S prm pick fuel wt cls i g.cfg = some cfg)
    (hpc : cfg.pc = fun k => if k = i then g.cfg.pc i + 1 else g.cfg.pc k) :
    ∃ g', statStep E S prm pick fuel wt cls i g = some g' ∧ g'.cfg = cfg ∧
      SInv E S prm pick fuel wt s0 reps0 cls k g' := by
  have hlt : i < cls.length := (List.getElem?_eq_some_iff.1 hi).1
  have hci : ∀ c', cls[i]? = some c' → c' = c := fun c' h => by
    rw [hi] at h; exact (Option.some.inj h).symm
  rcases hp : g.cfg.pc i with _ | _ | n
  · refine ⟨⟨cfg, g.n, { g.stat with
        ntargets := g.stat.ntargets.set i c.targets.length
        nreports := g.stat.nreports.set i c.reports.length }⟩, ?_, rfl, ?_⟩
    · simp only [statStep, hi, e, hp, put, hid i c hi, hg.lt, hg.lr, hlt, if_true]
    · refine ⟨hg.nof, by simpa using hg.lt, by simpa using hg.lr, hg.lh, ?_, ?_, ?_⟩
      · intro j d hj h
        by_cases hji : j = i
        · subst hji
          rw [hci d hj]
          constructor
          · exact List.getElem?_set_self (by rw [hg.lt]; exact hlt)
          · exact List.getElem?_set_self (by rw [hg.lr]; exact hlt)
        · simp only [hpc, hji, if_false] at h
          rw [List.getElem?_set_ne (Ne.symm hji), List.getElem?_set_ne (Ne.symm hji)]
          exact hg.size j d hj h
      · intro j d hj h
        by_cases hji : j = i
        · subst hji; simp only [hpc, if_true, hp] at h; omega
        · simp only [hpc, hji, if_false] at h; exact hg.n j d hj h
      · intro j d hj h
        by_cases hji : j = i
        · subst hji; simp only [hpc, if_true, hp] at h; omega
        · simp only [hpc, hji, if_false] at h; exact hg.hyp j d hj h
  · obtain ⟨q1, q2⟩ := hl.early i c hi (by omega)
    have hread : readAll g.cfg.st.heap c.targets = readAll s0.heap c.targets := readAll_congr q1
    have hreps : (c.reports.map fun j => (g.cfg.reps j).val) =
        c.reports.map fun j => (reps0 j).val :=
      List.map_congr_left fun j hj => by rw [q2 j hj]
    cases hts : readAll s0.heap c.targets with
    | none => simp [clStep, hi, hp, hread, hts] at e
    | some ts =>
      cases hv : compute E S prm pick fuel wt ts (c.reports.map fun j => (reps0 j).val) with
      | none => simp [clStep, hi, hp, hread, hreps, hts, hv] at e
      | some v =>
        refine ⟨⟨cfg, fun k => if k = i then v.n else g.n k, g.stat⟩, ?_, rfl, ?_⟩
        · simp only [statStep, hi, e, hp, hread, hreps, hts, hv]
        · refine ⟨hg.nof, hg.lt, hg.lr, hg.lh, ?_, ?_, ?_⟩
          · intro j d hj h
            by_cases hji : j = i
            · subst hji; exact hg.size j d hj (by omega)
            · simp only [hpc, hji, if_false] at h; exact hg.size j d hj h
          · intro j d hj h
            by_cases hji : j = i
            · subst hji
              rw [hci d hj]
              exact ⟨v, by simp only [compOf, hts, hv], by simp⟩
            · simp only [hpc, hji, if_false] at h ⊢; exact hg.n j d hj h
          · intro j d hj h
            by_cases hji : j = i
            · subst hji; simp only [hpc, if_true, hp] at h; omega
            · simp only [hpc, hji, if_false] at h; exact hg.hyp j d hj h
  · refine ⟨⟨cfg, g.n, { g.stat with nhyps := g.stat.nhyps.set i (g.n i) }⟩, ?_, rfl, ?_⟩
    · simp only [statStep, hi, e, hp, put, hid i c hi, hg.lh, hlt, if_true]
    · refine ⟨hg.nof, hg.lt, hg.lr, by simpa using hg.lh, ?_, ?_, ?_⟩
      · intro j d hj h
        by_cases hji : j = i
        · subst hji; exact hg.size j d hj (by omega)
        · simp only [hpc, hji, if_false] at h; exact hg.size j d hj h
      · intro j d hj h
        by_cases hji : j = i
        · subst hji; exact hg.n j d hj (by omega)
        · simp only [hpc, hji, if_false] at h; exact hg.n j d hj h
      · intro j d hj h
        by_cases hji : j = i
        · subst hji
          obtain ⟨v, h1, h2⟩ := hg.n j d hj (by omega)
          refine ⟨v, h1, ?_⟩
          rw [← h2]
          exact List.getElem?_set_self (by rw [hg.lh]; exact hlt)
        · simp only [hpc, hji, if_false] at h
          rw [List.getElem?_set_ne (Ne.symm hji)]
          exact hg.hyp j d hj h

theorem statRun_inv {E : Env P R O} (hbox : BoxOk E) {S : Sensor P R} {prm : Params}
    {pick : ∀ r c, List (Node r c) → Nat} {fuel : Nat} {wt : ℚ → ℝ} {s0 : St P}
    (hs0 : Ok E s0 fun _ => False)
    {reps0 : Nat → Rep R} {cls : List Cl} (hcl : ClOk s0 cls) {k : Nat}
    (hid : ∀ (i : Nat) (c : Cl), cls[i]? = some c → c.id = i) (sched : List Nat) {g : SCfg P R}
    (hl : LInv E S prm pick fuel wt s0 reps0 cls g.cfg)
    (hg : SInv E S prm pick fuel wt s0 reps0 cls k g)
    (hs : ∀ i, g.cfg.pc i + sched.count i = if i < cls.length then 3 else 0) :
    (clRun E S prm pick fuel wt cls sched g.cfg = none →
      statRun E S prm pick fuel wt cls sched g = none) ∧
    ∀ cfg, clRun E S prm pick fuel wt cls sched g.cfg = some cfg →
      ∃ g', statRun E S prm pick fuel wt cls sched g = some g' ∧ g'.cfg = cfg ∧
        SInv E S prm pick fuel wt s0 reps0 cls k g' ∧ ∀ i < cls.length, g'.cfg.pc i = 3 := by
  induction sched generalizing g with
  | nil =>
    refine ⟨fun h => by simp [clRun] at h, fun cfg h => ?_⟩
    simp only [clRun, Option.some.injEq] at h
    refine ⟨g, rfl, h, hg, ?_⟩
    intro i hi
    simpa [hi] using hs i
  | cons i l ih =>
    have hi := hs i
    simp only [List.count_cons_self] at hi
    have hlt : i < cls.length := by by_contra h; simp [h] at hi
    simp only [hlt, if_true] at hi
    have hc := List.getElem?_eq_getElem hlt
    rcases clStep_spec hbox hs0 hcl hl hc (by omega) with ⟨cfg', h1, h2, h3⟩ | ⟨_, h2⟩
    · obtain ⟨g', e1, e2, e3⟩ := statStep_ok hid hl hg hc h1 h3
      simp only [clRun, statRun, h1, e1]
      subst e2
      apply ih h2 e3
      intro k
      rw [h3]
      have hk := hs k
      by_cases hki : k = i
      · subst hki
        simp only [if_true, hlt, List.count_cons_self] at hk ⊢; omega
      · rw [List.count_cons_of_ne (Ne.symm hki)] at hk
        simpa [hki] using hk
    · simp only [clRun, statRun, statStep, hc, h2]
      simp

/-! ## Ids -/

/-- The ids that `cluster` gives. -/
theorem prepare_ids {E : Env P R O} (hbox : BoxOk E) {S : Sensor P R}
    (hf : S.fovBox.Valid) {scan : List (Rep R)} (hz : ∀ z ∈ scan, (E.rbox z.val).Valid) {s : St P}
    (hs : Ok E s fun _ => False) {cls : List Cl} {s1 : St P} {rcid : Nat → Nat}
    (e : prepare E S scan s = some (cls, s1, rcid)) :
    clusterCount E S scan s = some cls.length ∧
    (∀ (i : Nat) (c : Cl), cls[i]? = some c → c.id = i ∧ (∀ j ∈ c.reports, rcid j = i) ∧
      ∀ a ∈ c.targets, ∀ u, s1.heap a = some u → u.cid = i) ∧
    ∀ c ∈ cls, c.targets.length + c.reports.length ≠ 0 := by
  obtain ⟨all, a1, a2, a3⟩ := getTargets_ok hbox hf hs
  obtain ⟨qs, q1, q2, q3⟩ := queries_ok hbox hs (scan.map Rep.val) (by
    intro v hv
    obtain ⟨z, hz', rfl⟩ := List.mem_map.1 hv
    exact hz z hz')
  obtain ⟨st, c1, c2, c3, c4⟩ := Cluster.C10_clusters_cover (fun r => qs.getD r []) scan.length all a2
    (fun j => (scan[j]?.map Rep.cid).getD 0) (fun a => ((s.heap a).map Tgt.cid).getD 0)
  obtain ⟨st', d1, d2, d3, d4, d5, d6, d7, d8⟩ :=
    Cluster.C11_clusters_are_components (fun r => qs.getD r []) scan.length all a2
    (fun j => (scan[j]?.map Rep.cid).getD 0) (fun a => ((s.heap a).map Tgt.cid).getD 0)
  rw [c1] at d1
  obtain rfl := Option.some.inj d1
  simp only [prepare, a1, q1, c1] at e
  cases hw : writeCids s.heap st.tcid (st.clusters.flatMap Cl.targets) with
  | none => simp [hw] at e
  | some h =>
    simp only [hw, Option.some.injEq, Prod.mk.injEq] at e
    obtain ⟨rfl, rfl, rfl⟩ := e
    refine ⟨by simp only [clusterCount, a1, q1, c1, Option.map_some, d6], ?_, ?_⟩
    swap
    · intro c hcm hz
      obtain ⟨t, _, ht⟩ := d5 c hcm (List.length_eq_zero_iff.1 (by omega))
      rw [ht] at hz
      simp at hz
    intro i c hi
    have hm := List.mem_of_getElem? hi
    have hidc := d7 i c hi
    refine ⟨hidc, fun j hj => ((d8 c hm).1 j hj).trans hidc, ?_⟩
    intro a ha u hu
    have hlive : ∀ b ∈ st.clusters.flatMap Cl.targets, ∃ t, s.heap b = some t := by
      intro b hb
      rcases (c4 b).1 hb with hb | ⟨r, hr, hb⟩
      · obtain ⟨t, ht, _⟩ := (a3 b).1 hb
        exact ⟨t, ht⟩
      · obtain ⟨q, h1, _, h2⟩ := q3 r scan[r].val (by
          rw [List.getElem?_map, List.getElem?_eq_getElem hr]; rfl)
        rw [List.getD_eq_getElem?_getD, h1, Option.getD_some, h2] at hb
        obtain ⟨t, ht, _⟩ := hb
        exact ⟨t, ht⟩
    rw [writeCids_ok st.tcid _ s.heap c3 hlive, Option.some.injEq] at hw
    simp only [← hw] at hu
    rw [if_pos (List.mem_flatMap.2 ⟨c, hm, ha⟩), Option.map_eq_some_iff] at hu
    obtain ⟨t, _, rfl⟩ := hu
    exact ((d8 c hm).2 a ha).trans hidc

/-- Two reports are in one cluster if and only if a chain of targets connects them. -/
theorem prepare_chain {E : Env P R O} (hbox : BoxOk E) {S : Sensor P R}
    (hf : S.fovBox.Valid) {scan : List (Rep R)} (hz : ∀ z ∈ scan, (E.rbox z.val).Valid) {s : St P}
    (hs : Ok E s fun _ => False) {cls : List Cl} {s1 : St P} {rcid : Nat → Nat}
    (e : prepare E S scan s = some (cls, s1, rcid)) (i j : Nat) (hi : i < scan.length)
    (hj : j < scan.length) :
    (∃ c ∈ cls, i ∈ c.reports ∧ j ∈ c.reports) ↔
      Relation.ReflTransGen (fun x y => ∃ b, Hits E scan s b x ∧ Hits E scan s b y) i j := by
  obtain ⟨all, a1, a2, a3⟩ := getTargets_ok hbox hf hs
  obtain ⟨qs, q1, q2, q3⟩ := queries_ok hbox hs (scan.map Rep.val) (by
    intro v hv
    obtain ⟨z, hz', rfl⟩ := List.mem_map.1 hv
    exact hz z hz')
  obtain ⟨st, d1, d2, d3, _⟩ :=
    Cluster.C11_clusters_are_components (fun r => qs.getD r []) scan.length all a2
    (fun j => (scan[j]?.map Rep.cid).getD 0) (fun a => ((s.heap a).map Tgt.cid).getD 0)
  have hcls : cls = st.clusters := by
    simp only [prepare, a1, q1, d1] at e
    split at e
    · cases e
    · simp only [Option.some.injEq, Prod.mk.injEq] at e
      exact e.1.symm
  subst hcls
  have hit : ∀ j, j < scan.length → ∀ a, a ∈ qs.getD j [] ↔ Hits E scan s a j := by
    intro j hj a
    obtain ⟨q, h1, _, h2⟩ := q3 j scan[j].val (by
      rw [List.getElem?_map, List.getElem?_eq_getElem hj]; rfl)
    rw [List.getD_eq_getElem?_getD, h1, Option.getD_some, h2]
    constructor
    · rintro ⟨t, ht, h⟩
      exact ⟨t, _, ht, List.getElem?_eq_getElem hj, h⟩
    · rintro ⟨t, z, ht, hz, h⟩
      rw [List.getElem?_eq_getElem hj] at hz
      obtain rfl := Option.some.inj hz
      exact ⟨t, ht, h⟩
  rw [d3 i hi j hj]
  constructor
  · intro h
    refine Relation.ReflTransGen.mono (fun x y => ?_) _ _ h
    rintro ⟨hx, hy, t, h1, h2⟩
    exact ⟨t, (hit x hx t).1 h1, (hit y hy t).1 h2⟩
  · intro h
    refine Relation.ReflTransGen.mono (fun x y => ?_) _ _ h
    rintro ⟨t, h1, h2⟩
    exact ⟨h1.lt, h2.lt, t, (hit x h1.lt t).2 h1, (hit y h2.lt t).2 h2⟩

theorem length_filter_of_mem {l L : List Nat} (hl : l.Nodup) (hL : L.Nodup) {p : Nat → Prop}
    [DecidablePred p] (h : ∀ a, a ∈ l ↔ a ∈ L ∧ p a) :
    l.length = (L.filter fun a => decide (p a)).length := by
  refine (List.Perm.length_eq ?_)
  rw [List.perm_ext_iff_of_nodup hl (hL.filter _)]
  intro a
  rw [h a, List.mem_filter, decide_eq_true_iff]

/-- `correctS` does what `correct` does. -/
theorem correctS_spec {E : Env P R O} (hbox : BoxOk E) {S : Sensor P R}
    (hf : S.fovBox.Valid) {prm : Params} {ch : Choices} (hch : ChOk ch) (fuel : Nat)
    {scan : List (Rep R)} (hz : ∀ z ∈ scan, (E.rbox z.val).Valid) (dflt : Rep R) (st0 : Stats)
    {s : St P} (hs : Ok E s fun _ => False) :
    (correct E S prm ch fuel scan dflt s = none →
      correctS E S prm ch fuel scan dflt st0 s = none) ∧
    ∀ r, correct E S prm ch fuel scan dflt s = some r →
      ∃ cls s1 rcid st, prepare E S scan s = some (cls, s1, rcid) ∧
        correctS E S prm ch fuel scan dflt st0 s = some (r, st) ∧ st.nof = cls.length ∧
        st.ntargets = cls.map (fun c => c.targets.length) ∧
        st.nreports = cls.map (fun c => c.reports.length) ∧ st.nhyps.length = cls.length ∧
        ∀ (i : Nat) (c : Cl), cls[i]? = some c → ∃ v,
          compOf E S prm ch.pick fuel ch.wt s1.heap (initReps scan rcid dflt) c = some v ∧
          st.nhyps[i]? = some v.n := by
  obtain ⟨cls, s1, rcid, p1, p2, p3, p4, p5, _⟩ := prepare_ok hbox hf hz hs
  obtain ⟨i1, i2, _⟩ := prepare_ids hbox hf hz hs p1
  obtain ⟨r1, r2⟩ := statRun_inv (E := E) hbox (S := S) (prm := prm) (pick := ch.pick) (fuel := fuel)
    (wt := ch.wt) p3 (reps0 := initReps scan rcid dflt) p2 (k := cls.length)
    (fun i c h => (i2 i c h).1) (ch.sched cls)
    (g := ⟨⟨s1, initReps scan rcid dflt, fun _ => 0⟩, fun _ => 0,
      ⟨cls.length, resize cls.length st0.ntargets, resize cls.length st0.nreports,
        resize cls.length st0.nhyps⟩⟩)
    (LInv.init p3) ⟨rfl, resize_length _ _, resize_length _ _, resize_length _ _,
      fun i c _ h => by simp at h, fun i c _ h => by simp at h, fun i c _ h => by simp at h⟩
    (fun i => by simpa using hch.sched cls i)
  cases hrun : clRun E S prm ch.pick fuel ch.wt cls (ch.sched cls)
      ⟨s1, initReps scan rcid dflt, fun _ => 0⟩ with
  | none =>
    refine ⟨fun _ => by simp only [correctS, p1, i1, r1 hrun], fun r h => ?_⟩
    simp [correct, p1, hrun] at h
  | some cfg =>
    obtain ⟨g, g1, g2, g3, g4⟩ := r2 cfg hrun
    subst g2
    cases hb : birth E S prm ch.alloc ch.ord cls scan.length g.cfg.reps g.cfg.st with
    | none =>
      refine ⟨fun _ => by simp only [correctS, p1, i1, g1, hb], fun r h => ?_⟩
      simp [correct, p1, hrun, hb] at h
    | some s2 =>
      refine ⟨fun h => by simp [correct, p1, hrun, hb] at h, fun r h => ?_⟩
      simp only [correct, p1, hrun, hb, Option.some.injEq] at h
      subst h
      have hpc : ∀ (i : Nat) (c : Cl), cls[i]? = some c → g.cfg.pc i = 3 := fun i c h =>
        g4 i (List.getElem?_eq_some_iff.1 h).1
      have hext : ∀ (l : List Nat) (f : Cl → Nat), l.length = cls.length →
          (∀ (i : Nat) (c : Cl), cls[i]? = some c → l[i]? = some (f c)) → l = cls.map f := by
        intro l f h1 h2
        refine List.ext_getElem? fun i => ?_
        rw [List.getElem?_map]
        by_cases hi : i < cls.length
        · rw [List.getElem?_eq_getElem hi, h2 i _ (List.getElem?_eq_getElem hi)]; rfl
        · rw [List.getElem?_eq_none (by omega), List.getElem?_eq_none (l := cls) (by omega)]; rfl
      refine ⟨cls, s1, rcid, g.stat, p1, by simp only [correctS, p1, i1, g1, hb], g3.nof,
        hext _ _ g3.lt fun i c h => (g3.size i c h (by rw [hpc i c h]; decide)).1,
        hext _ _ g3.lr fun i c h => (g3.size i c h (by rw [hpc i c h]; decide)).2, g3.lh,
        fun i c h => g3.hyp i c h (by rw [hpc i c h])⟩

theorem writeReps_cid {reps : Nat → Rep R} (l : List Nat) (vs : List R) (bs : List (Option ℝ))
    (j : Nat) : (writeReps reps l vs bs j).cid = (reps j).cid := by
  induction l generalizing vs bs reps with
  | nil => rfl
  | cons k l ih =>
    cases vs with
    | nil => rfl
    | cons x vs =>
      cases bs with
      | nil => rfl
      | cons b bs =>
        rw [writeReps, ih]
        split
        · subst_vars; rfl
        · rfl

/-- A report keeps the id of its cluster. -/
theorem finalReps_cid {E : Env P R O} {S : Sensor P R} {prm : Params}
    {pick : ∀ r c, List (Node r c) → Nat} {fuel : Nat} {wt : ℚ → ℝ} {h0 : Nat → Option (Tgt P)}
    {reps0 : Nat → Rep R} {cls : List Cl} (j : Nat) :
    (finalReps E S prm pick fuel wt h0 reps0 cls j).cid = (reps0 j).cid := by
  unfold finalReps
  split
  · rfl
  · split
    · rfl
    · exact writeReps_cid _ _ _ _

open Classical in
/-- **C95 (counts).**  After any history and for every schedule, `correct` is defined when it is, and
leaves in its fields: the number of clusters in `nof_clusters` and as the length of the three vectors;
numbers of reports that add up to the length of the scan and numbers of targets that add up to the
number of targets reached, with no empty cluster; at the id of a report the number of reports with that id and of the targets
connected to it; and for every target reached there is an entry with the number of targets connected
to it by reports, itself included, and of the reports connected to it. -/
theorem C95_counts {E : Env P R O} (hbox : BoxOk E) (prm : Params) (fuel0 : Nat)
    (calls : List (Call P R)) (hc : ∀ d ∈ calls, CallOk E d) (s : St P)
    (e : run E prm fuel0 calls St.empty = some s) (S : Sensor P R) (ch : Choices)
    (scan : List (Rep R)) (dflt : Rep R) (hok : CallOk E (.correct S ch scan dflt))
    (fuel : Nat) (st0 : Stats) :
    (correctS E S prm ch fuel scan dflt st0 s).map (·.1) = correct E S prm ch fuel scan dflt s ∧
    ∀ s2 reps st, correctS E S prm ch fuel scan dflt st0 s = some ((s2, reps), st) →
      st.ntargets.length = st.nof ∧ st.nreports.length = st.nof ∧ st.nhyps.length = st.nof ∧
      st.nreports.sum = scan.length ∧
      st.ntargets.sum = (s.targets.filter fun a => Gated E S scan s a).length ∧
      (∀ (i m n : Nat), st.ntargets[i]? = some m → st.nreports[i]? = some n → m + n ≠ 0) ∧
      (∀ j < scan.length,
        st.nreports[(reps j).cid]? =
          some ((List.range scan.length).filter fun i => (reps i).cid = (reps j).cid).length ∧
        st.ntargets[(reps j).cid]? = some (s.targets.filter fun a => Linked E scan s a j).length) ∧
      ∀ a, Gated E S scan s a → ∃ i : Nat,
        st.ntargets[i]? = some (s.targets.filter fun b =>
          b = a ∨ ∃ j, Linked E scan s a j ∧ Linked E scan s b j).length ∧
        st.nreports[i]? = some ((List.range scan.length).filter fun j => Linked E scan s a j).length := by
  have hs := run_inv hbox (Inv.empty E) hc e
  obtain ⟨hf, hch, hz⟩ := hok
  obtain ⟨n1, n2⟩ := correctS_spec hbox hf (prm := prm) hch fuel hz dflt st0 hs.ok
  cases hcor : correct E S prm ch fuel scan dflt s with
  | none =>
    rw [n1 hcor]
    exact ⟨rfl, fun _ _ _ h => by cases h⟩
  | some r =>
    obtain ⟨cls, s1, rcid, st, p1, m1, m2, m3, m4, m5, m6⟩ := n2 r hcor
    rw [m1]
    refine ⟨rfl, ?_⟩
    rintro s2 reps st' h
    simp only [Option.some.injEq, Prod.mk.injEq] at h
    obtain ⟨rfl, rfl⟩ := h
    obtain ⟨cls', s1', rcid', p1', p2, p3, p4, p5, p6, p7, _⟩ := prepare_ok hbox hf hz hs.ok
    rw [p1, Option.some.injEq, Prod.mk.injEq, Prod.mk.injEq] at p1'
    obtain ⟨rfl, rfl, rfl⟩ := p1'
    obtain ⟨_, i2, i3⟩ := prepare_ids hbox hf hz hs.ok p1
    have hclosed := prepare_closed hbox hf hz hs.ok p1
    have hchain := prepare_chain hbox hf hz hs.ok p1
    obtain ⟨cls', s1', rcid', new, d, _⟩ := correct_origin hbox hf hch hz hs hcor
    have e' := d.prep
    rw [p1, Option.some.injEq, Prod.mk.injEq, Prod.mk.injEq] at e'
    obtain ⟨rfl, rfl, rfl⟩ := e'
    have htnd : ∀ c ∈ cls, c.targets.Nodup := (List.nodup_flatMap.1 p2.tnd).1
    have hrnd : ∀ c ∈ cls, c.reports.Nodup := (List.nodup_flatMap.1 p2.rnd).1
    have hlive : ∀ c ∈ cls, ∀ a ∈ c.targets, a ∈ s.targets := fun c hc a ha => by
      have := p2.tin c hc a ha
      rwa [p4] at this
    have hcid : ∀ j, (reps j).cid = rcid j := by
      intro j
      rw [d.rep, finalReps_cid]
      rfl
    have hrlt : ∀ c ∈ cls, ∀ j ∈ c.reports, j < scan.length := fun c hc j hj =>
      List.mem_range.1 (p6.mem_iff.1 (List.mem_flatMap.2 ⟨c, hc, hj⟩))
    have hrin : ∀ j < scan.length, ∃ c ∈ cls, j ∈ c.reports := fun j hj =>
      List.mem_flatMap.1 (p6.mem_iff.2 (List.mem_range.2 hj))
    refine ⟨by rw [m2, m3, List.length_map], by rw [m2, m4, List.length_map], by rw [m2, m5], ?_, ?_,
      ?_, ?_, ?_⟩
    · rw [m4, ← List.length_flatMap, p6.length_eq, List.length_range]
    · rw [m3, ← List.length_flatMap]
      refine length_filter_of_mem p2.tnd hs.ok.nodup fun a => ?_
      rw [List.mem_flatMap]
      constructor
      · rintro ⟨c, hc, ha⟩
        exact ⟨hlive c hc a ha, (p7 a).1 ⟨c, hc, ha⟩⟩
      · rintro ⟨_, h⟩
        exact (p7 a).2 h
    · intro i m n h1 h2
      rw [m3, List.getElem?_map, Option.map_eq_some_iff] at h1
      obtain ⟨c, hi, rfl⟩ := h1
      rw [m4, List.getElem?_map, hi, Option.map_some, Option.some.injEq] at h2
      subst h2
      exact i3 c (List.mem_of_getElem? hi)
    · intro j hj
      obtain ⟨c, hcm, hjc⟩ := hrin j hj
      obtain ⟨i, hi⟩ := List.mem_iff_getElem?.1 hcm
      have hij : (reps j).cid = i := (hcid j).trans ((i2 i c hi).2.1 j hjc)
      rw [hij, m3, m4, List.getElem?_map, List.getElem?_map, hi, Option.map_some, Option.map_some]
      refine ⟨congrArg some (length_filter_of_mem (hrnd c hcm) List.nodup_range fun k => ?_),
        congrArg some (length_filter_of_mem (htnd c hcm) hs.ok.nodup fun a => ?_)⟩
      · constructor
        · intro hk
          exact ⟨List.mem_range.2 (hrlt c hcm k hk), (hcid k).trans ((i2 i c hi).2.1 k hk)⟩
        · rintro ⟨hk, hkc⟩
          obtain ⟨c', hc', hk'⟩ := hrin k (List.mem_range.1 hk)
          obtain ⟨i', hi'⟩ := List.mem_iff_getElem?.1 hc'
          rw [hcid, (i2 i' c' hi').2.1 k hk'] at hkc
          subst hkc
          rw [hi] at hi'
          obtain rfl := Option.some.inj hi'
          exact hk'
      · constructor
        · intro ha
          exact ⟨hlive c hcm a ha, ((hclosed c hcm a ha).1 j).1 hjc⟩
        · rintro ⟨_, hl⟩
          obtain ⟨k, ⟨t, z, h1, h2, h3⟩, _⟩ := id hl
          obtain ⟨c', hc', ha'⟩ := (p7 a).2 ⟨t, h1, Or.inr ⟨z, List.mem_of_getElem? h2, h3⟩⟩
          have := ((hclosed c' hc' a ha').1 j).2 hl
          obtain rfl := unique_of_nodup p2.rnd hc' hcm this hjc
          exact ha'
    · intro a ha
      obtain ⟨c, hcm, hac⟩ := (p7 a).2 ha
      obtain ⟨i, hi⟩ := List.mem_iff_getElem?.1 hcm
      refine ⟨i, ?_⟩
      rw [m3, m4, List.getElem?_map, List.getElem?_map, hi, Option.map_some, Option.map_some]
      refine ⟨congrArg some (length_filter_of_mem (htnd c hcm) hs.ok.nodup fun b => ?_),
        congrArg some (length_filter_of_mem (hrnd c hcm) List.nodup_range fun k => ?_)⟩
      · rw [← (hclosed c hcm a hac).2 b]
        exact ⟨fun h => ⟨hlive c hcm b h, h⟩, fun h => h.2⟩
      · rw [← (hclosed c hcm a hac).1 k]
        exact ⟨fun h => ⟨List.mem_range.2 (hrlt c hcm k h), h⟩, fun h => h.2⟩

/-- The number of hypotheses of a cluster. -/
theorem compute_n {E : Env P R O} {S : Sensor P R} (hS : CostsOk S) {prm : Params}
    {pick : ∀ r c, List (Node r c) → Nat} (hp : ∀ r c, PickOk (pick r c)) {fuel : Nat} {wt : ℚ → ℝ}
    {ts : List (Nat × Tgt P)} {rs : List R} {v : Comp P R}
    (e : compute E S prm pick fuel wt ts rs = some v) :
    (ts.length = 0 → v.n = 0) ∧ (ts.length ≠ 0 → 1 ≤ v.n ∧ v.n ≤ max 1 ⌈prm.nhypMax⌉₊) := by
  constructor
  · intro h
    obtain rfl := List.length_eq_zero_iff.1 h
    unfold compute at e
    simp only [List.map_nil, List.length_nil, if_true, Option.some.injEq] at e
    rw [← e]
  · intro h
    have hlen : ts.length ≤ 30 := by
      by_contra hn
      rw [compute_limit hS prm hp fuel wt ts rs (by omega)] at e
      cases e
    unfold compute at e
    simp only at e
    set o := E.center (rs.map E.rpos ++ ts.map fun t => E.pos t.2.pdf) with ho
    set rl := rs.map (E.rLocal o) with hrl
    set tl := ts.map fun t => (t.1, forth E o t.2) with htl
    have hl : tl.length = ts.length := by simp [htl]
    rw [if_neg (by omega)] at e
    obtain ⟨F, L, a, g1, g2, _, _, _, _, g7, g8⟩ := hypotheses_spec (M := tl.length) (N := rl.length)
      (C := costMatrix
        (fun i j => S.detCost (tl.get i).1 (tl.get i).2.r (tl.get i).2.pdf (rl.get j))
        (fun i => S.missCost (tl.get i).1 (tl.get i).2.r (tl.get i).2.pdf)
        (fun i => S.flsCost (tl.get i).2.r))
      (costMatrix_ok (fun _ _ => hS.det _ _ _ _) (fun _ => hS.miss _ _ _) (fun _ => hS.fls _))
      (by omega) (by omega) (hp _ _) wt prm.wlim prm.nhypMax
    have hne : L ≠ [] := by
      rcases g8 with ⟨h, _⟩ | h
      · exact h
      · obtain ⟨τ, hτ⟩ := costMatrix_feasible (M := tl.length) (N := rl.length)
          (det := fun i j => S.detCost (tl.get i).1 (tl.get i).2.r (tl.get i).2.pdf (rl.get j))
          (miss := fun i => S.missCost (tl.get i).1 (tl.get i).2.r (tl.get i).2.pdf)
          (fls := fun i => S.flsCost (tl.get i).2.r) (fun _ => hS.fls _)
        exact List.ne_nil_of_mem (h τ hτ)
    have hpos : 1 ≤ L.length := List.length_pos_iff.2 hne
    have hmax : L.length ≤ max 1 ⌈prm.nhypMax⌉₊ := by
      by_contra hcon
      rw [not_le, max_lt_iff] at hcon
      obtain ⟨hc1, hc2⟩ := hcon
      have := g7 (L.length - 2) (by omega)
      unfold Stop at this
      rw [not_or] at this
      have h3 := this.2
      rw [not_le, List.length_map, List.length_take] at h3
      have h4 := Nat.lt_ceil.2 h3
      omega
    cases hh : hypotheses (pick _ _) fuel wt prm.wlim prm.nhypMax (costMatrix
        (fun i j => S.detCost (tl.get i).1 (tl.get i).2.r (tl.get i).2.pdf (rl.get j))
        (fun i => S.missCost (tl.get i).1 (tl.get i).2.r (tl.get i).2.pdf)
        (fun i => S.flsCost (tl.get i).2.r)) with
    | none => rw [hh] at e; cases e
    | some a' =>
      have h1 := g1 (max fuel F) (le_max_right _ _)
      rw [hypotheses_mono _ _ _ _ (le_max_left _ _) hh, Option.some.injEq] at h1
      subst h1
      rw [hh] at e
      simp only at e
      rw [if_neg (by rw [g2.n]; omega), Option.some.injEq] at e
      rw [← e]
      simp only
      rw [g2.n]
      exact ⟨hpos, hmax⟩

/-- **C95 (hypotheses).**  With costs that are numbers, the number of hypotheses in `cluster_nhyps` is 0
for clusters without targets, and between 1 and `nhyp_max` (rounded up) for the others. -/
theorem C95_hyps {E : Env P R O} (hbox : BoxOk E) (prm : Params) (fuel0 : Nat)
    (calls : List (Call P R)) (hc : ∀ d ∈ calls, CallOk E d) (s : St P)
    (e : run E prm fuel0 calls St.empty = some s) (S : Sensor P R) (ch : Choices)
    (scan : List (Rep R)) (dflt : Rep R) (hok : CallOk E (.correct S ch scan dflt))
    (hk : CallCosts (.correct S ch scan dflt : Call P R))
    (fuel : Nat) (st0 st : Stats) (r : St P × (Nat → Rep R))
    (h : correctS E S prm ch fuel scan dflt st0 s = some (r, st)) (i m : Nat)
    (hm : st.ntargets[i]? = some m) :
    ∃ n, st.nhyps[i]? = some n ∧ (m = 0 → n = 0) ∧
      (m ≠ 0 → 1 ≤ n ∧ n ≤ max 1 ⌈prm.nhypMax⌉₊) := by
  have hs := run_inv hbox (Inv.empty E) hc e
  obtain ⟨hf, hch, hz⟩ := hok
  obtain ⟨n1, n2⟩ := correctS_spec hbox hf (prm := prm) hch fuel hz dflt st0 hs.ok
  cases hcor : correct E S prm ch fuel scan dflt s with
  | none => rw [n1 hcor] at h; cases h
  | some r' =>
    obtain ⟨cls, s1, rcid, st', p1, m1, m2, m3, m4, m5, m6⟩ := n2 r' hcor
    rw [h, Option.some.injEq, Prod.mk.injEq] at m1
    obtain ⟨rfl, rfl⟩ := m1
    rw [m3, List.getElem?_map, Option.map_eq_some_iff] at hm
    obtain ⟨c, hi, hcm⟩ := hm
    obtain ⟨v, v1, v2⟩ := m6 i c hi
    refine ⟨v.n, v2, ?_⟩
    unfold compOf at v1
    cases hts : readAll s1.heap c.targets with
    | none => simp [hts] at v1
    | some ts =>
      simp only [hts] at v1
      have := compute_n hk.1 hk.2 v1
      have hl : ts.length = m := by rw [← hcm, ← (readAll_spec hts).1, List.length_map]
      rwa [hl] at this

/-- **C95 (ids).**  After a call of `correct` two reports have the same `cid` if and only if a chain of
targets connects them; a target that was reached and survived has the `cid` of the reports connected to
it and shares it with the targets connected to it by reports, and with no other report or target that
was reached; a new target has that of its report; a target that was not reached keeps the one it had. -/
theorem C95_cids {E : Env P R O} (hbox : BoxOk E) (prm : Params) (fuel0 : Nat)
    (calls : List (Call P R)) (hc : ∀ d ∈ calls, CallOk E d) (s : St P)
    (e : run E prm fuel0 calls St.empty = some s) (S : Sensor P R) (ch : Choices)
    (scan : List (Rep R)) (dflt : Rep R) (hok : CallOk E (.correct S ch scan dflt))
    (fuel : Nat) (s2 : St P) (reps : Nat → Rep R)
    (h : correct E S prm ch fuel scan dflt s = some (s2, reps)) :
    (∀ i j, i < scan.length → j < scan.length → ((reps i).cid = (reps j).cid ↔
      Relation.ReflTransGen (fun x y => ∃ b, Hits E scan s b x ∧ Hits E scan s b y) i j)) ∧
    ∃ new : List Nat, (∀ a ∈ s2.targets, a ∉ new → a ∈ s.targets) ∧
      (∀ a ∉ new, ¬ Gated E S scan s a → s2.heap a = s.heap a) ∧
      (∀ a ∉ new, Gated E S scan s a → ∀ u, s2.heap a = some u →
        (∀ j < scan.length, (reps j).cid = u.cid ↔ Linked E scan s a j) ∧
        ∀ b ∉ new, Gated E S scan s b → ∀ w, s2.heap b = some w →
          (w.cid = u.cid ↔ b = a ∨ ∃ j, Linked E scan s a j ∧ Linked E scan s b j)) ∧
      ∀ a ∈ new, ∃ u j, s2.heap a = some u ∧ j < scan.length ∧ u.cid = (reps j).cid ∧
        u.pdf = S.init (reps j).val := by
  have hs := run_inv hbox (Inv.empty E) hc e
  obtain ⟨hf, hch, hz⟩ := hok
  obtain ⟨cls, s1, rcid, new, d, _, o2, o3⟩ := correct_origin hbox hf hch hz hs h
  have p1 := d.prep
  obtain ⟨cls', s1', rcid', p1', p2, p3, p4, p5, p6, p7, p8, p9, p10⟩ := prepare_ok hbox hf hz hs.ok
  rw [p1, Option.some.injEq, Prod.mk.injEq, Prod.mk.injEq] at p1'
  obtain ⟨rfl, rfl, rfl⟩ := p1'
  obtain ⟨_, i2, _⟩ := prepare_ids hbox hf hz hs.ok p1
  have hclosed := prepare_closed hbox hf hz hs.ok p1
  have hchain := prepare_chain hbox hf hz hs.ok p1
  have hcid : ∀ j, (reps j).cid = rcid j := by
    intro j
    rw [d.rep, finalReps_cid]
    rfl
  have hrlt : ∀ c ∈ cls, ∀ j ∈ c.reports, j < scan.length := fun c hc j hj =>
    List.mem_range.1 (p6.mem_iff.1 (List.mem_flatMap.2 ⟨c, hc, hj⟩))
  have hrin : ∀ j < scan.length, ∃ (i : Nat) (c : Cl), cls[i]? = some c ∧ j ∈ c.reports := fun j hj => by
    obtain ⟨c, hc, hj⟩ := List.mem_flatMap.1 (p6.mem_iff.2 (List.mem_range.2 hj))
    obtain ⟨i, hi⟩ := List.mem_iff_getElem?.1 hc
    exact ⟨i, c, hi, hj⟩
  have hold : ∀ a ∉ new, Gated E S scan s a → ∀ u, s2.heap a = some u →
      ∃ (i : Nat) (c : Cl), cls[i]? = some c ∧ a ∈ c.targets ∧ u.cid = i := by
    intro a ha hg u hu
    obtain ⟨_, t, c, v, k, h1, h2, h3, h4, h5, h6⟩ := o3 a ha hg u hu
    obtain ⟨i, hi⟩ := List.mem_iff_getElem?.1 h3
    obtain ⟨a', x, q1, q2, _, q4⟩ := (compOf_length h5).2.2.2 k u h6
    rw [h4, Option.some.injEq] at q1
    subst q1
    exact ⟨i, c, hi, List.mem_of_getElem? h4,
      q4.trans ((i2 i c hi).2.2 a (List.mem_of_getElem? h4) x q2)⟩
  refine ⟨?_, new, ?_, o2, ?_, ?_⟩
  · intro i j hi hj
    rw [← hchain i j hi hj, hcid, hcid]
    constructor
    · intro hij
      obtain ⟨x, c, hx, hic⟩ := hrin i hi
      obtain ⟨y, c', hy, hjc⟩ := hrin j hj
      rw [(i2 x c hx).2.1 i hic, (i2 y c' hy).2.1 j hjc] at hij
      subst hij
      rw [hx, Option.some.injEq] at hy
      subst hy
      exact ⟨c, List.mem_of_getElem? hx, hic, hjc⟩
    · rintro ⟨c, hcm, hic, hjc⟩
      obtain ⟨x, hx⟩ := List.mem_iff_getElem?.1 hcm
      rw [(i2 x c hx).2.1 i hic, (i2 x c hx).2.1 j hjc]
  · intro a ha hn
    rw [d.targets, List.mem_append] at ha
    rcases ha with ha | ha
    · exact (List.mem_filter.1 ha).1
    · exact absurd ha hn
  · intro a ha hg u hu
    obtain ⟨i, c, hi, hac, hui⟩ := hold a ha hg u hu
    have hcm := List.mem_of_getElem? hi
    constructor
    · intro j hj
      rw [← (hclosed c hcm a hac).1 j, hui, hcid]
      constructor
      · intro hji
        obtain ⟨y, c', hy, hjc⟩ := hrin j hj
        rw [(i2 y c' hy).2.1 j hjc] at hji
        subst hji
        rw [hi, Option.some.injEq] at hy
        subst hy
        exact hjc
      · exact fun hjc => (i2 i c hi).2.1 j hjc
    · intro b hb hgb w hw
      obtain ⟨y, c', hy, hbc, hwy⟩ := hold b hb hgb w hw
      rw [← (hclosed c hcm a hac).2 b, hui, hwy]
      constructor
      · intro hyi
        subst hyi
        rw [hi, Option.some.injEq] at hy
        subst hy
        exact hbc
      · intro hbc'
        obtain rfl := unique_of_nodup p2.tnd (List.mem_of_getElem? hy) hcm hbc hbc'
        obtain ⟨hy1, hy2⟩ := List.getElem?_eq_some_iff.1 hy
        obtain ⟨hi1, hi2⟩ := List.getElem?_eq_some_iff.1 hi
        have h1 := (i2 y _ hy).1
        have h2 := (i2 i _ hi).1
        exact h1.symm.trans h2
  · intro a ha
    obtain ⟨k, hk⟩ := List.mem_iff_getElem?.1 ha
    obtain ⟨j, x, b1, b2⟩ := d.new_born hk
    exact ⟨_, j, b2, (births_mem hch.ord p6 (List.mem_of_getElem? b1)).1, rfl, rfl⟩

/-- **C95 (`cluster_nhyps` in Python, refuted).**  What Python reads as the number of hypotheses differs
from it: for a report that no target is near it is 1 and there are none; for a target in view that no
report is near it is 0 and there is at least one. -/
theorem C95_python_refuted {E : Env P R O} (hbox : BoxOk E) (prm : Params) (fuel0 : Nat)
    (calls : List (Call P R)) (hc : ∀ d ∈ calls, CallOk E d) (s : St P)
    (e : run E prm fuel0 calls St.empty = some s) (S : Sensor P R) (ch : Choices)
    (scan : List (Rep R)) (dflt : Rep R) (hok : CallOk E (.correct S ch scan dflt))
    (hk : CallCosts (.correct S ch scan dflt : Call P R))
    (fuel : Nat) (st0 st : Stats) (s2 : St P) (reps : Nat → Rep R)
    (h : correctS E S prm ch fuel scan dflt st0 s = some ((s2, reps), st)) :
    (∀ j < scan.length, (∀ a, ¬ Hits E scan s a j) →
      (pyClusterNhyps st)[(reps j).cid]? = some 1 ∧ st.nhyps[(reps j).cid]? = some 0) ∧
    ∀ a, Gated E S scan s a → (∀ j, ¬ Hits E scan s a j) →
      ∃ i n : Nat, (pyClusterNhyps st)[i]? = some 0 ∧ st.nhyps[i]? = some n ∧ 1 ≤ n := by
  classical
  have hcnt := (C95_counts hbox prm fuel0 calls hc s e S ch scan dflt hok fuel st0).2 s2 reps st h
  have hhyp := C95_hyps hbox prm fuel0 calls hc s e S ch scan dflt hok hk fuel st0 st _ h
  obtain ⟨_, _, _, _, _, _, k1, k2⟩ := hcnt
  have hcor : correct E S prm ch fuel scan dflt s = some (s2, reps) := by
    rw [← (C95_counts hbox prm fuel0 calls hc s e S ch scan dflt hok fuel st0).1, h]; rfl
  have hcids := (C95_cids hbox prm fuel0 calls hc s e S ch scan dflt hok fuel s2 reps hcor).1
  constructor
  · intro j hj hno
    obtain ⟨q1, q2⟩ := k1 j hj
    have hnl : ∀ a, ¬ Linked E scan s a j := by
      rintro a ⟨i, hi, hij⟩
      rcases Relation.ReflTransGen.cases_tail hij with h | ⟨c, _, b, _, hb⟩
      · subst h; exact hno a hi
      · exact hno b hb
    have h0 : (s.targets.filter fun a => Linked E scan s a j).length = 0 := by
      rw [List.length_eq_zero_iff, List.filter_eq_nil_iff]
      intro a _
      simpa using hnl a
    rw [h0] at q2
    obtain ⟨n, n1, n2, _⟩ := hhyp _ _ q2
    rw [n2 rfl] at n1
    refine ⟨?_, n1⟩
    rw [pyClusterNhyps, q1, Option.some.injEq]
    have h1 := length_filter_of_mem (l := [j]) (L := List.range scan.length) (by simp)
      List.nodup_range (p := fun i => (reps i).cid = (reps j).cid) (fun i => by
        rw [List.mem_singleton, List.mem_range]
        constructor
        · rintro rfl; exact ⟨hj, rfl⟩
        · rintro ⟨hi, hij⟩
          rcases Relation.ReflTransGen.cases_tail ((hcids i j hi hj).1 hij) with h | ⟨c, _, b, _, hb⟩
          · exact h.symm
          · exact absurd hb (hno b))
    exact h1.symm
  · intro a ha hno
    obtain ⟨i, q1, q2⟩ := k2 a ha
    have hnl : ∀ j, ¬ Linked E scan s a j := by
      rintro j ⟨i, hi, _⟩
      exact hno i hi
    have h0 : ((List.range scan.length).filter fun j => Linked E scan s a j).length = 0 := by
      rw [List.length_eq_zero_iff, List.filter_eq_nil_iff]
      intro j _
      simpa using hnl j
    rw [h0] at q2
    obtain ⟨n, n1, _, n2⟩ := hhyp _ _ q1
    refine ⟨i, n, q2, n1, (n2 ?_).1⟩
    rw [Ne, List.length_eq_zero_iff, List.filter_eq_nil_iff]
    intro hall
    have hs := run_inv hbox (Inv.empty E) hc e
    obtain ⟨t, ht, _⟩ := ha
    exact hall a ((hs.ok.live a).1 ⟨t, ht⟩) (by simp)

/-- A report alone in its scan that reaches nothing has the id 0. -/
theorem alone_cid {E : Env P R O} (hbox : BoxOk E) (prm : Params) (fuel0 : Nat)
    (calls : List (Call P R)) (hc : ∀ d ∈ calls, CallOk E d) (s : St P)
    (e : run E prm fuel0 calls St.empty = some s) (S : Sensor P R) (ch : Choices)
    (scan : List (Rep R)) (dflt : Rep R) (hok : CallOk E (.correct S ch scan dflt))
    (fuel : Nat) (s2 : St P) (reps : Nat → Rep R)
    (h : correct E S prm ch fuel scan dflt s = some (s2, reps))
    (hfree : ∀ a, ¬ Gated E S scan s a) (h1 : scan.length = 1) : (reps 0).cid = 0 := by
  classical
  obtain ⟨k1, k2⟩ := C95_counts hbox prm fuel0 calls hc s e S ch scan dflt hok fuel ⟨0, [], [], []⟩
  rw [h, Option.map_eq_some_iff] at k1
  obtain ⟨⟨⟨s2', reps'⟩, st⟩, g1, g2⟩ := k1
  simp only [Prod.mk.injEq] at g2
  obtain ⟨rfl, rfl⟩ := g2
  obtain ⟨l1, l2, _, q1, q2, q3, q4, _⟩ := k2 _ _ _ g1
  have h0 : (s.targets.filter fun a => Gated E S scan s a).length = 0 := by
    rw [List.length_eq_zero_iff, List.filter_eq_nil_iff]
    intro a _
    simpa using hfree a
  rw [h0, List.sum_eq_zero_iff] at q2
  have hone : ∀ n ∈ st.nreports, 1 ≤ n := by
    intro n hn
    obtain ⟨i, hi⟩ := List.mem_iff_getElem?.1 hn
    have hlt : i < st.ntargets.length := by
      have := (List.getElem?_eq_some_iff.1 hi).1
      omega
    have := q3 i _ n (List.getElem?_eq_getElem hlt) hi
    rw [q2 _ (List.getElem_mem hlt)] at this
    omega
  have hlen := List.length_le_sum_of_one_le _ hone
  have := (List.getElem?_eq_some_iff.1 (q4 0 (by omega)).1).1
  omega

/-- The example sensor looking somewhere else, with two expected births per scan. -/
noncomputable def exFar : Sensor ℚ ℚ := { exSB with fovBox := ⟨90, -10, 110, 10⟩ }

/-- **C95 (the `cid`s of all targets tell which belong together, refuted).**  Two targets that no report
connects, and that were never in one scan, have the same `cid` after a correction: the one that was not
reached keeps what an earlier scan gave it. -/
theorem C95_stale_refuted (fuel : Nat) : ∃ (s s2 : St ℚ) (reps : Nat → Rep ℚ) (a b : Nat) (t u : Tgt ℚ),
    run exE exPrm fuel [.correct exSB exCh [⟨0, none, 0⟩] ⟨0, none, 0⟩] St.empty = some s ∧
    correct exE exFar exPrm exCh fuel [⟨100, none, 0⟩] ⟨0, none, 0⟩ s = some (s2, reps) ∧
    a ∈ s.targets ∧ b ∉ s.targets ∧ (∀ c, ¬ Gated exE exFar [⟨100, none, 0⟩] s c) ∧
    s2.heap a = some t ∧ s2.heap b = some u ∧ t.cid = u.cid := by
  have ok1 : CallOk exE (.correct exSB exCh [⟨0, none, 0⟩] ⟨0, none, 0⟩) :=
    ⟨exS_fov, exCh_ok, fun z _ => exE_rbox _⟩
  have ok2 : CallOk exE (.correct exFar exCh [⟨100, none, 0⟩] ⟨0, none, 0⟩) :=
    ⟨by constructor <;> · simp only [exFar]; norm_num, exCh_ok, fun z _ => exE_rbox _⟩
  have free1 : ∀ a, ¬ Gated exE exSB [⟨0, none, 0⟩] (St.empty : St ℚ) a := by
    rintro a ⟨t, ht, _⟩; simp [St.empty] at ht
  obtain ⟨s, reps, new, h1, h2, _, _, h4, _⟩ := C58_unreached_scan exE_box exPrm fuel [] (by simp)
    St.empty rfl exSB exCh [⟨0, none, 0⟩] ⟨0, none, 0⟩ ok1 free1
  have hlen := h4 (by simp [exPrm]; norm_num) (by simp [exPrm, exSB]; norm_num)
  have hrun : run exE exPrm fuel [.correct exSB exCh [⟨0, none, 0⟩] ⟨0, none, 0⟩] St.empty = some s := by
    simp [run, step, h1]
  have hcall : ∀ d ∈ [Call.correct exSB exCh [(⟨0, none, 0⟩ : Rep ℚ)] ⟨0, none, 0⟩], CallOk exE d := by
    intro d hd
    rw [List.mem_singleton] at hd
    subst hd
    exact ok1
  have hs := run_inv exE_box (Inv.empty exE) hcall hrun
  obtain ⟨a, rfl⟩ := List.length_eq_one_iff.1 (hlen.trans rfl)
  have hta : s.targets = [a] := by simpa [St.empty] using h2
  obtain ⟨t, ht⟩ := (hs.ok.live a).2 (by rw [hta]; simp)
  have hpdf : ∀ b v, s.heap b = some v → v.pdf = 0 := by
    intro b v hv
    obtain ⟨y, hy, o, hp⟩ := first_scan exE_box exPrm fuel exSB exCh _ _ ok1 s reps h1 b v hv
    rw [List.mem_singleton] at hy
    subst hy
    rw [hp]
    simp [exSB, exS, exE]
  have htc : t.cid = 0 := by
    obtain ⟨_, new', n1, _, _, n4⟩ := C95_cids exE_box exPrm fuel [] (by simp) St.empty rfl exSB exCh
      _ _ ok1 fuel s reps h1
    have ha : a ∈ new' := by
      by_contra hn
      have := n1 a (by rw [hta]; simp) hn
      simp [St.empty] at this
    obtain ⟨v, j, v1, v2, v3, _⟩ := n4 a ha
    rw [ht, Option.some.injEq] at v1
    subst v1
    have hj : j = 0 := by simpa using v2
    subst hj
    rw [v3]
    exact alone_cid exE_box exPrm fuel [] (by simp) St.empty rfl exSB exCh _ _ ok1 fuel s reps h1 free1 rfl
  have free2 : ∀ b, ¬ Gated exE exFar [⟨100, none, 0⟩] s b := by
    rintro b ⟨v, hv, hg⟩
    have hp := hpdf b v hv
    rcases hg with ⟨⟨x, y, hx, hy⟩, _⟩ | ⟨z, hz, x, y, hx, hy⟩
    · simp only [exFar, exE, Rect.Mem, hp] at hx hy
      linarith [hx.1, hy.2.1]
    · rw [List.mem_singleton] at hz
      subst hz
      simp only [exE, Rect.Mem, hp] at hx hy
      linarith [hx.1, hy.2.1]
  obtain ⟨s2, reps2, new2, g1, g2, g3, _, g5, _⟩ := C58_unreached_scan exE_box exPrm fuel _ hcall s hrun
    exFar exCh [⟨100, none, 0⟩] ⟨0, none, 0⟩ ok2 free2
  have hlen2 := g5 (by simp [exPrm]; norm_num) (by simp [exPrm, exFar, exSB]; norm_num)
  obtain ⟨b, rfl⟩ := List.length_eq_one_iff.1 (hlen2.trans rfl)
  have hcall2 : ∀ d ∈ [Call.correct exSB exCh [(⟨0, none, 0⟩ : Rep ℚ)] ⟨0, none, 0⟩,
      Call.correct exFar exCh [(⟨100, none, 0⟩ : Rep ℚ)] ⟨0, none, 0⟩], CallOk exE d := by
    intro d hd
    simp only [List.mem_cons, List.not_mem_nil, or_false] at hd
    rcases hd with rfl | rfl
    · exact ok1
    · exact ok2
  have hs2 := run_inv exE_box (s' := s2) (prm := exPrm) (fuel := fuel) (Inv.empty exE) hcall2
    (by simp [run, step, h1, g1])
  rw [hta] at g2
  have hab : a ≠ b := by
    have := hs2.ok.nodup
    rw [g2] at this
    simpa using this
  obtain ⟨_, new', n1, _, _, n4⟩ := C95_cids exE_box exPrm fuel _ hcall s hrun exFar exCh
      _ _ ok2 fuel s2 reps2 g1
  have hb : b ∈ new' := by
    by_contra hn
    have := n1 b (by rw [g2]; simp) hn
    rw [hta, List.mem_singleton] at this
    exact hab this.symm
  obtain ⟨u, j, u1, u2, u3, u4⟩ := n4 b hb
  have hj : j = 0 := by simpa using u2
  subst hj
  refine ⟨s, s2, reps2, a, b, t, u, hrun, g1, by rw [hta]; simp, by rw [hta]; simpa using hab.symm, free2,
    ?_, u1, ?_⟩
  · rw [g3 a (by rw [hta]; simp), ht]
  · rw [htc, u3]
    exact (alone_cid exE_box exPrm fuel _ hcall s hrun exFar exCh _ _ ok2 fuel s2 reps2 g1 free2 rfl).symm

/-! ## Concrete cases -/

example : ∃ F s1, run exE exPrm F (exCalls.take 2) St.empty = some s1 ∧ ∃ s2 reps st,
    correctS exE exS exPrm exCh F exScan ⟨0, none, 0⟩ ⟨7, [1, 2], [], [5]⟩ s1 = some ((s2, reps), st) ∧
    st.nreports.sum = 3 := by
  obtain ⟨F, s1, s, reps, h1, h2⟩ := exCorrect
  obtain ⟨k1, k2⟩ := C95_counts exE_box exPrm F _ exTake_ok s1 h1 exS exCh exScan ⟨0, none, 0⟩ exOk F
    ⟨7, [1, 2], [], [5]⟩
  rw [h2, Option.map_eq_some_iff] at k1
  obtain ⟨⟨⟨s2', reps'⟩, st⟩, g1, g2⟩ := k1
  exact ⟨F, s1, h1, s2', reps', st, g1, (k2 _ _ _ g1).2.2.2.1⟩

/-- The first report of a new tracker: Python says that there is a hypothesis. -/
example (fuel : Nat) : ∃ s2 reps st,
    correctS exE exSB exPrm exCh fuel [⟨0, none, 0⟩] ⟨0, none, 0⟩ ⟨0, [], [], []⟩ St.empty =
      some ((s2, reps), st) ∧
    (pyClusterNhyps st)[(reps 0).cid]? = some 1 ∧ st.nhyps[(reps 0).cid]? = some 0 := by
  have ok1 : CallOk exE (.correct exSB exCh [⟨0, none, 0⟩] ⟨0, none, 0⟩) :=
    ⟨exS_fov, exCh_ok, fun z _ => exE_rbox _⟩
  obtain ⟨s, reps, new, h1, _⟩ := C58_unreached_scan exE_box exPrm fuel [] (by simp)
    St.empty rfl exSB exCh [⟨0, none, 0⟩] ⟨0, none, 0⟩ ok1
    (by rintro a ⟨t, ht, _⟩; simp [St.empty] at ht)
  obtain ⟨k1, k2⟩ := C95_counts exE_box exPrm fuel [] (by simp) St.empty rfl exSB exCh _ _ ok1 fuel
    ⟨0, [], [], []⟩
  rw [h1, Option.map_eq_some_iff] at k1
  obtain ⟨⟨⟨s2', reps'⟩, st⟩, g1, g2⟩ := k1
  exact ⟨s2', reps', st, g1, (C95_python_refuted exE_box exPrm fuel [] (by simp) St.empty rfl exSB exCh
    _ _ ok1 ⟨exSB_costs, exCh_pick⟩ fuel _ st s2' reps' g1).1 0 (by simp)
    (by rintro a ⟨t, z, ht, _⟩; simp [St.empty] at ht)⟩

/-- The second scan of the example history: every cluster with targets has a hypothesis. -/
example : ∃ F s1 r st, correctS exE exS exPrm exCh F exScan ⟨0, none, 0⟩ ⟨0, [], [], []⟩ s1 =
      some (r, st) ∧ ∀ i m : Nat, st.ntargets[i]? = some m → ∃ n, st.nhyps[i]? = some n ∧
        (m = 0 → n = 0) ∧ (m ≠ 0 → 1 ≤ n ∧ n ≤ max 1 ⌈exPrm.nhypMax⌉₊) := by
  obtain ⟨F, s1, s, reps, h1, h2⟩ := exCorrect
  obtain ⟨k1, k2⟩ := C95_counts exE_box exPrm F _ exTake_ok s1 h1 exS exCh exScan ⟨0, none, 0⟩ exOk F
    ⟨0, [], [], []⟩
  rw [h2, Option.map_eq_some_iff] at k1
  obtain ⟨⟨r, st⟩, g1, g2⟩ := k1
  exact ⟨F, s1, r, st, g1, C95_hyps exE_box exPrm F _ exTake_ok s1 h1 exS exCh exScan ⟨0, none, 0⟩ exOk
    ⟨exS_costs, exCh_pick⟩ F _ st r g1⟩

example := exCorrect.imp fun F h => h.imp fun s1 h => h.imp fun s h => h.imp fun reps h =>
  C95_cids exE_box exPrm F _ exTake_ok s1 h.1 exS exCh exScan ⟨0, none, 0⟩ exOk F s reps h.2

end Verif.Tracker

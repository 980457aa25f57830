import Verif.Tracker.Closed
import Verif.Tracker.Props4

/-! # Queries while a scan is being processed (C75)

`correct` releases the interpreter lock (`lmb/lmb.cpp`), so the query methods can run in another
thread.  They hold the lock `ttree` (`lmb.hpp:139,150,…`), which excludes the critical sections of
`correct`, but not the computation of a cluster between its two critical sections
(`cluster.hpp:43-48,142-152`). -/

namespace Verif.Tracker

open Verif.RTree (Rect)
open Verif.Cluster (Cl)
open Verif.Hyp Verif.Lap Verif.Murty

variable {P R O : Type}

/-- `center_of_mass`, `cluster.hpp:156-162`, of a cluster that has not been transformed yet. -/
def clOrigin (E : Env P R O) (g : Cfg P R) (c : Cl) : O :=
  E.center ((c.reports.map fun j => E.rpos (g.reps j).val) ++
    c.targets.filterMap fun a => (g.st.heap a).map fun t => E.pos t.pdf)

/-- What another thread sees after the targets at the addresses `L` have been moved to a local frame
(`transform_to_local`, `cluster.hpp:56,184-193`) and before the cluster has moved them back
(`cluster.hpp:131`).  The assignments in between (`target.hpp:162-170`) are left out: a target is
seen before its correction or after the whole computation of its cluster. -/
def seen (E : Env P R O) (org : Nat → O) (L : List Nat) (s : St P) : St P :=
  { s with heap := fun a => if a ∈ L then (s.heap a).map (forth E (org a)) else s.heap a }

theorem clRun_prefix {E : Env P R O} (hbox : BoxOk E) {S : Sensor P R} {prm : Params}
    {pick : ∀ r c, List (Node r c) → Nat} {fuel : Nat} {wt : ℚ → ℝ} {s0 : St P}
    (hs0 : Ok E s0 fun _ => False)
    {reps0 : Nat → Rep R} {cls : List Cl} (hcl : ClOk s0 cls) (l : List Nat) {g g' : Cfg P R}
    (hg : LInv E S prm pick fuel wt s0 reps0 cls g)
    (hs : ∀ i, g.pc i + l.count i ≤ if i < cls.length then 3 else 0)
    (e : clRun E S prm pick fuel wt cls l g = some g') :
    LInv E S prm pick fuel wt s0 reps0 cls g' ∧ ∀ i, g'.pc i = g.pc i + l.count i := by
  induction l generalizing g with
  | nil =>
    simp only [clRun, Option.some.injEq] at e
    subst e
    exact ⟨hg, by simp⟩
  | cons i l ih =>
    have hi := hs i
    simp only [List.count_cons_self] at hi
    have hlt : i < cls.length := by by_contra h; simp [h] at hi
    simp only [hlt, if_true] at hi
    have hc := List.getElem?_eq_getElem hlt
    rcases clStep_spec hbox hs0 hcl hg hc (by omega) with ⟨g1, h1, h2, h3⟩ | ⟨h1, h2⟩
    · simp only [clRun, h1] at e
      obtain ⟨q1, q2⟩ := ih h2 (by
        intro k
        rw [h3]
        have hk := hs k
        by_cases hki : k = i
        · subst hki
          simp only [if_true, hlt, List.count_cons_self] at hk ⊢; omega
        · rw [List.count_cons_of_ne (Ne.symm hki)] at hk
          simpa [hki] using hk) e
      refine ⟨q1, fun k => ?_⟩
      rw [q2, h3]
      by_cases hki : k = i
      · subst hki
        simp only [if_true, List.count_cons_self]; omega
      · rw [List.count_cons_of_ne (Ne.symm hki)]
        simp [hki]
    · simp only [clRun, h2] at e
      cases e

/-- The target at `a` is being updated: its cluster is between its two critical sections. -/
def Busy (cls : List Cl) (g : Cfg P R) (a : Nat) : Prop :=
  ∃ i c, cls[i]? = some c ∧ a ∈ c.targets ∧ (g.pc i = 1 ∨ g.pc i = 2)

open Classical in
/-- **C75** While `correct` processes a scan – after any number of steps of its clusters, and with
any targets of clusters under way moved to a local frame – the query methods are defined and read
live targets only.  `get_targets()` lists every live target once, `enof_targets()` and
`nof_targets()` are the sum and the number over that list; the methods for a region return exactly
those that touch it and are not being updated.  Each target is listed as it was before the call (up
to `cid`), or so moved to the origin of its cluster, or as the call leaves it. -/
theorem C75_queries_during {E : Env P R O} (hbox : BoxOk E) (prm : Params)
    (fuel : Nat) (calls : List (Call P R)) (hc : ∀ d ∈ calls, CallOk E d) (s : St P)
    (e : run E prm fuel calls St.empty = some s) (S : Sensor P R) (ch : Choices)
    (scan : List (Rep R)) (dflt : Rep R) (hok : CallOk E (.correct S ch scan dflt))
    (cls : List Cl) (s1 : St P) (rcid : Nat → Nat) (hprep : prepare E S scan s = some (cls, s1, rcid))
    (k : Nat) (g : Cfg P R)
    (hg : clRun E S prm ch.pick fuel ch.wt cls ((ch.sched cls).take k)
      ⟨s1, initReps scan rcid dflt, fun _ => 0⟩ = some g)
    (org : Nat → O) (L : List Nat) (hL : ∀ a ∈ L, ∃ i c, cls[i]? = some c ∧ a ∈ c.targets ∧
      g.pc i = 1 ∧ org a = clOrigin E g c) :
    ∃ l : List (Nat × Tgt P), getAll (seen E org L g.st) = some l ∧ l.Nodup ∧
      (∀ a, (∃ t, (a, t) ∈ l) ↔ ∃ t, g.st.heap a = some t) ∧
      enofTargets (seen E org L g.st) = some (l.map fun t => t.2.r).sum ∧
      (∀ rlim, nofTargets (seen E org L g.st) rlim =
        some ((l.filter fun t => decide (rlim ≤ t.2.r)).length % 2 ^ 32)) ∧
      (∀ b : Rect, b.Valid → ∃ l' : List (Nat × Tgt P), getIn (seen E org L g.st) b = some l' ∧
        l'.Perm (l.filter fun t => decide (¬ Busy cls g t.1 ∧ b.Touch (E.box t.2.pdf))) ∧
        enofTargetsIn (seen E org L g.st) b = some (l'.map fun t => t.2.r).sum ∧
        ∀ rlim, nofTargetsIn (seen E org L g.st) b rlim =
          some ((l'.filter fun t => decide (rlim ≤ t.2.r)).length % 2 ^ 32)) ∧
      ∀ a t, (a, t) ∈ l →
        (∃ u v, s.heap a = some u ∧ SameBut u v ∧ (a ∉ L ∧ t = v ∨ a ∈ L ∧ t = forth E (org a) v)) ∨
        (a ∉ L ∧ ∀ s2 reps, correct E S prm ch fuel scan dflt s = some (s2, reps) →
          viable E prm t = true → s2.heap a = some t) := by
  have hs := run_inv hbox (Inv.empty E) hc e
  obtain ⟨hf, hch, hz⟩ := hok
  obtain ⟨cls', s1', rcid', p1, p2, p3, p4, p5, p6, p7, p8, p9, p10⟩ := prepare_ok hbox hf hz hs.ok
  rw [hprep, Option.some.injEq, Prod.mk.injEq, Prod.mk.injEq] at p1
  obtain ⟨rfl, rfl, rfl⟩ := p1
  obtain ⟨hI, hpc⟩ := clRun_prefix hbox p3 p2 _ (LInv.init p3) (by
    intro i
    have := (List.take_sublist k (ch.sched cls)).count_le i
    rw [hch.sched cls i] at this
    simpa using this) hg
  have hbusy : ∀ a, (∃ i c, cls[i]? = some c ∧ a ∈ c.targets ∧ (g.pc i = 1 ∨ g.pc i = 2)) ↔
    Busy cls g a := fun a => Iff.rfl
  have hLb : ∀ a ∈ L, Busy cls g a := fun a ha => by
    obtain ⟨i, c, h1, h2, h3, _⟩ := hL a ha
    exact ⟨i, c, h1, h2, Or.inl h3⟩
  set v := seen E org L g.st with hv
  have hsome : ∀ a, (∃ t, v.heap a = some t) ↔ ∃ t, g.st.heap a = some t := by
    intro a
    simp only [hv, seen]
    by_cases ha : a ∈ L
    · simp only [ha, if_true, Option.map_eq_some_iff]
      constructor
      · rintro ⟨t, u, h, _⟩; exact ⟨u, h⟩
      · rintro ⟨u, h⟩; exact ⟨_, u, h, rfl⟩
    · simp only [ha, if_false]
  have hvt : v.targets = g.st.targets := rfl
  obtain ⟨l, hl⟩ := readAll_some (h := v.heap) (l := v.targets)
    fun a ha => (hsome a).2 ((hI.ok.live a).2 ha)
  have hnd := readAll_nodup hl hI.ok.nodup
  have hmem : ∀ a t, (a, t) ∈ l ↔ v.heap a = some t := by
    intro a t
    rw [readAll_mem hl]
    exact ⟨fun h => h.2, fun h => ⟨(hI.ok.live a).1 ((hsome a).1 ⟨t, h⟩), h⟩⟩
  refine ⟨l, hl, hnd, ?_, ?_, ?_, ?_, ?_⟩
  · intro a
    rw [← hsome a]
    exact ⟨fun ⟨t, h⟩ => ⟨t, (hmem a t).1 h⟩, fun ⟨t, h⟩ => ⟨t, (hmem a t).2 h⟩⟩
  · unfold enofTargets
    rw [sumR_spec hl, zero_add]
  · intro rlim
    unfold nofTargets
    rw [countR_spec hl _ (by positivity), zero_add]
  · intro b hb
    obtain ⟨q, h1, h2, h3⟩ := query_ok hbox hI.ok b hb
    have h1 : query v b = some q := h1
    obtain ⟨l', hl'⟩ := readAll_some (h := v.heap) (l := q) fun a ha => by
      obtain ⟨_, _, t, ht, _⟩ := (h3 a).1 ha
      exact (hsome a).2 ⟨t, ht⟩
    refine ⟨l', by simp only [getIn, h1, hl'], ?_, ?_, ?_⟩
    · rw [List.perm_ext_iff_of_nodup (readAll_nodup hl' h2) (hnd.filter _)]
      rintro ⟨a, t⟩
      rw [readAll_mem hl', List.mem_filter, hmem, h3]
      simp only [decide_eq_true_eq]
      have hkeep : ¬ Busy cls g a → v.heap a = g.st.heap a := by
        intro h
        have : a ∉ L := fun h' => h (hLb a h')
        simp only [hv, seen, this, if_false]
      constructor
      · rintro ⟨⟨_, hn, t', ht', htouch⟩, ht⟩
        rw [hkeep hn, ht'] at ht
        obtain rfl := Option.some.inj ht
        exact ⟨by rw [hkeep hn, ht'], hn, htouch⟩
      · rintro ⟨ht, hn, htouch⟩
        exact ⟨⟨(hI.ok.live a).1 ((hsome a).1 ⟨t, ht⟩), hn, t, by rw [← hkeep hn, ht], htouch⟩, ht⟩
    · simp only [enofTargetsIn, h1]
      rw [sumR_spec hl', zero_add]
    · intro rlim
      simp only [nofTargetsIn, h1]
      rw [countR_spec hl' _ (by positivity), zero_add]
  · intro a t hat
    rw [hmem] at hat
    by_cases haL : a ∈ L
    · left
      obtain ⟨i, c, h1, h2, h3, _⟩ := hL a haL
      simp only [hv, seen, haL, if_true, Option.map_eq_some_iff] at hat
      obtain ⟨w, hw, rfl⟩ := hat
      rw [(hI.early i c h1 (by omega)).1 a h2] at hw
      obtain ⟨u, hu, hsb⟩ := p10 a w hw
      exact ⟨u, w, hu, hsb, Or.inr ⟨haL, rfl⟩⟩
    · have hga : g.st.heap a = some t := by simpa only [hv, seen, haL, if_false] using hat
      by_cases hcl : ∃ c ∈ cls, a ∈ c.targets
      · obtain ⟨c, hcm, hac⟩ := hcl
        obtain ⟨i, hi⟩ := List.mem_iff_getElem?.1 hcm
        by_cases hpi : g.pc i ≤ 1
        · left
          rw [(hI.early i c hi hpi).1 a hac] at hga
          obtain ⟨u, hu, hsb⟩ := p10 a t hga
          exact ⟨u, t, hu, hsb, Or.inl ⟨haL, rfl⟩⟩
        · right
          refine ⟨haL, fun s2 reps hcor hvi => ?_⟩
          obtain ⟨w, w1, w2, _⟩ := hI.late i c hi (by omega)
          obtain ⟨cls', s1', rcid', new, d, _⟩ := correct_origin hbox hf hch hz hs hcor
          have e' := d.prep
          rw [hprep, Option.some.injEq, Prod.mk.injEq, Prod.mk.injEq] at e'
          obtain ⟨rfl, rfl, rfl⟩ := e'
          have hfin : finalHeap E S prm ch.pick fuel ch.wt s1.heap (initReps scan rcid dflt) cls a =
              some t := by
            have hw := w2 a hac
            rw [hga] at hw
            unfold finalHeap
            rw [if_pos (by rw [List.any_eq_true]; exact ⟨c, hcm, by simpa using hac⟩)]
            unfold midHeap
            rw [(find_targets p2.tnd hi hac).1]
            simp only [w1]
            by_cases h2 : g.pc i = 2
            · rw [if_pos h2] at hw
              rw [← hw]
              simp [Option.filter, hvi]
            · rw [if_neg h2] at hw
              exact hw.symm
          have hnew : a ∉ new := fun h => by
            have := d.fresh a h
            rw [hfin] at this
            cases this
          rw [d.old a hnew, hfin]
      · left
        rw [hI.rest a fun c hcm hac => hcl ⟨c, hcm, hac⟩] at hga
        obtain ⟨u, hu, hsb⟩ := p10 a t hga
        exact ⟨u, t, hu, hsb, Or.inl ⟨haL, rfl⟩⟩

theorem clRun_append {E : Env P R O} {S : Sensor P R} {prm : Params}
    {pick : ∀ r c, List (Node r c) → Nat} {fuel : Nat} {wt : ℚ → ℝ} {cls : List Cl} (l l' : List Nat)
    (g : Cfg P R) : clRun E S prm pick fuel wt cls (l ++ l') g =
      (clRun E S prm pick fuel wt cls l g).bind (clRun E S prm pick fuel wt cls l') := by
  induction l generalizing g with
  | nil => rfl
  | cons i l ih =>
    simp only [List.cons_append, clRun]
    cases clStep E S prm pick fuel wt cls i g with
    | none => rfl
    | some g' => exact ih g'

/-- The third call of the example history, after any number of steps; after the first step the
targets of cluster 0 may be in its local frame. -/
example : ∃ (F : Nat) (s : St ℚ), run exE exPrm F (exCalls.take 2) St.empty = some s ∧
    ∃ cls s1 rcid, prepare exE exS exScan s = some (cls, s1, rcid) ∧
    (∀ k, ∃ (g : Cfg ℚ ℚ) (x : ℝ), clRun exE exS exPrm exCh.pick F exCh.wt cls
      ((exCh.sched cls).take k) ⟨s1, initReps exScan rcid ⟨0, none, 0⟩, fun _ => 0⟩ = some g ∧
      enofTargets g.st = some x) ∧
    ∀ g c, clRun exE exS exPrm exCh.pick F exCh.wt cls
        ((exCh.sched cls).take 1) ⟨s1, initReps exScan rcid ⟨0, none, 0⟩, fun _ => 0⟩ = some g →
      cls[0]? = some c →
      ∃ l, getAll (seen exE (fun _ => clOrigin exE g c) c.targets g.st) = some l ∧ l.Nodup := by
  obtain ⟨F, s1, s, reps, h1, h2⟩ := exCorrect
  obtain ⟨cls, s', rcid, p1, p2, p3, _⟩ := prepare_ok exE_box exOk.1 exOk.2.2
    (run_inv exE_box (Inv.empty exE) exTake_ok h1).ok
  refine ⟨F, s1, h1, cls, s', rcid, p1, fun k => ?_, fun g c hg hc => ?_⟩
  · simp only [correct, p1] at h2
    rw [← List.take_append_drop k (exCh.sched cls), clRun_append] at h2
    cases hg : clRun exE exS exPrm exCh.pick F exCh.wt cls ((exCh.sched cls).take k)
        ⟨s', initReps exScan rcid ⟨0, none, 0⟩, fun _ => 0⟩ with
    | none => rw [hg] at h2; cases h2
    | some g =>
      obtain ⟨l, _, _, _, h, _⟩ := C75_queries_during exE_box exPrm F _ exTake_ok s1 h1 exS exCh exScan
        _ exOk cls s' rcid p1 k g hg (fun _ => 0) [] (by simp)
      have hs : seen exE (fun _ => (0 : ℚ)) [] g.st = g.st := by simp [seen]
      rw [hs] at h
      exact ⟨g, _, rfl, h⟩
  · have hpc : ∀ i, g.pc i = ((exCh.sched cls).take 1).count i := by
      intro i
      have := (clRun_prefix exE_box p3 p2 _ (LInv.init p3) (by
        intro i
        have := (List.take_sublist 1 (exCh.sched cls)).count_le i
        rw [exCh_ok.sched cls i] at this
        simpa using this) hg).2 i
      simpa using this
    have h0 : g.pc 0 = 1 := by
      rw [hpc]
      have hlt := (List.getElem?_eq_some_iff.1 hc).1
      show (((List.range cls.length).flatMap fun i => [i, i, i]).take 1).count 0 = 1
      obtain ⟨n, hn⟩ : ∃ n, cls.length = n + 1 := ⟨cls.length - 1, by omega⟩
      rw [hn, List.range_succ_eq_map]
      simp
    obtain ⟨l, h3, h4, _⟩ := C75_queries_during exE_box exPrm F _ exTake_ok s1 h1 exS exCh exScan
      _ exOk cls s' rcid p1 1 g hg (fun _ => clOrigin exE g c) c.targets
      fun a ha => ⟨0, c, hc, ha, h0, rfl⟩
    exact ⟨l, h3, h4⟩

/-! ## The positions and the regions are wrong meanwhile -/

/-- A tracker on a line; a density is a position and the origin of its frame. -/
def exE2 : Env (ℚ × ℚ) ℚ ℚ where
  box p := ⟨p.1 - 1, 0, p.1 + 1, 1⟩
  covNorm _ := 1
  pos p := p.1
  toLocal o p := (p.1 - o, o)
  toGlobal p := (p.1 + p.2, p.2)
  normalize p := p
  eta _ := 1
  join p _ _ := p
  rpos z := z
  rbox z := ⟨z, 0, z, 1⟩
  rLocal o z := z - o
  rGlobal o z := z + o
  center l := l.sum / l.length
  areas := .exact

/-- A sensor for `exE2`. -/
noncomputable def exS2 : Sensor (ℚ × ℚ) ℚ where
  fovBox := ⟨-10, -10, 10, 10⟩
  inView _ := true
  lambdaB := 1 / 2
  upd _ p _ := p
  detCost _ _ _ _ := XR.fin 1
  missPdf _ p := p
  missCost _ _ _ := XR.fin 2
  flsCost _ := XR.fin 1
  init z := (z, 0)

theorem exE2_box : BoxOk exE2 := by
  refine boxOk_exact rfl fun p => ?_
  constructor
  · show p.1 - 1 ≤ p.1 + 1; linarith
  · show (0 : ℚ) ≤ 1; norm_num

/-- **C75, refuted** That a query gives the positions of the targets in latitude and longitude, and
all targets of the region, is false while `correct` runs in another thread: a tracker that has seen
one report at 3 reports one target, at 3, in the region from 2 to 4; during the next scan it reports
that target at 0, and none in the region. -/
theorem C75_refuted (fuel : Nat) : ∃ (s : St (ℚ × ℚ)) (a : Nat) (t : Tgt (ℚ × ℚ)) (cls : List Cl)
    (s1 : St (ℚ × ℚ)) (rcid : Nat → Nat) (i : Nat) (g : Cfg (ℚ × ℚ) ℚ) (c : Cl) (u : Tgt (ℚ × ℚ)),
    run exE2 exPrm fuel [.correct exS2 exCh [⟨3, none, 0⟩] ⟨0, none, 0⟩] St.empty = some s ∧
    getIn s ⟨2, 0, 4, 1⟩ = some [(a, t)] ∧ getAll s = some [(a, t)] ∧ exE2.pos t.pdf = 3 ∧
    prepare exE2 exS2 [⟨3, none, 0⟩] s = some (cls, s1, rcid) ∧
    clRun exE2 exS2 exPrm exCh.pick fuel exCh.wt cls [i]
      ⟨s1, initReps [⟨3, none, 0⟩] rcid ⟨0, none, 0⟩, fun _ => 0⟩ = some g ∧
    cls[i]? = some c ∧ a ∈ c.targets ∧ g.pc i = 1 ∧
    getIn (seen exE2 (fun _ => clOrigin exE2 g c) [a] g.st) ⟨2, 0, 4, 1⟩ = some [] ∧
    getAll (seen exE2 (fun _ => clOrigin exE2 g c) [a] g.st) = some [(a, u)] ∧
    exE2.pos u.pdf = 0 := by
  have hok : CallOk exE2 (.correct exS2 exCh [⟨3, none, 0⟩] ⟨0, none, 0⟩) := by
    refine ⟨?_, exCh_ok, fun z _ => ?_⟩
    · constructor <;> · show (-10 : ℚ) ≤ 10; norm_num
    · constructor
      · exact le_refl _
      · show (0 : ℚ) ≤ 1; norm_num
  obtain ⟨s, reps, new, h1, h2, _, _, h4, _⟩ := C58_unreached_scan exE2_box exPrm fuel [] (by simp)
    St.empty rfl exS2 exCh [⟨3, none, 0⟩] ⟨0, none, 0⟩ hok
    (by rintro a ⟨t, ht, _⟩; simp [St.empty] at ht)
  have hl := h4 (by simp only [exPrm]; norm_num) (by simp only [exPrm, exS2]; norm_num)
  obtain ⟨a, rfl⟩ := List.length_eq_one_iff.1 hl
  have htg : s.targets = [a] := by simpa [St.empty] using h2
  have hrun : run exE2 exPrm fuel [.correct exS2 exCh [⟨3, none, 0⟩] ⟨0, none, 0⟩] St.empty =
      some s := by simp [run, step, h1]
  have hs : Inv exE2 s := step_inv exE2_box (Inv.empty exE2) hok (prm := exPrm) (fuel := fuel)
    (by simp [step, h1])
  obtain ⟨t, ht⟩ := (hs.ok.live a).2 (by rw [htg]; simp)
  have hp : t.pdf = (3, 0) := by
    obtain ⟨y, hy, o, h⟩ := first_scan exE2_box exPrm fuel exS2 exCh _ _ hok s reps h1 a t ht
    rw [List.mem_singleton] at hy
    subst hy
    rw [h]
    show ((3 : ℚ) - o + o, (0 : ℚ)) = (3, 0)
    rw [sub_add_cancel]
  have hbv : Rect.Valid ⟨2, 0, 4, 1⟩ := by
    constructor
    · show (2 : ℚ) ≤ 4; norm_num
    · show (0 : ℚ) ≤ 1; norm_num
  have htouch : Rect.Touch ⟨2, 0, 4, 1⟩ (exE2.box t.pdf) := by
    rw [hp]
    refine ⟨3, 0, ?_, ?_⟩ <;> simp only [exE2, Rect.Mem] <;> norm_num
  have hone : ∀ l : List Nat, l.Nodup → (∀ b, b ∈ l ↔ b = a) → l = [a] := by
    intro l h1 h2
    rw [← List.perm_singleton, List.perm_ext_iff_of_nodup h1 (by simp)]
    simpa using h2
  have hall : ∀ (h : Nat → Option (Tgt (ℚ × ℚ))) (u), h a = some u → readAll h [a] = some [(a, u)] :=
    fun h u hu => by simp [readAll, hu]
  obtain ⟨q, q1, q2, q3⟩ := query_ok exE2_box hs.ok ⟨2, 0, 4, 1⟩ hbv
  have hq : q = [a] := hone q q2 fun b => by
    rw [q3]
    constructor
    · rintro ⟨h, _⟩
      rw [htg] at h
      simpa using h
    · rintro rfl
      exact ⟨by rw [htg]; simp, fun h => h, t, ht, htouch⟩
  obtain ⟨cls, s1, rcid, p1, p2, p3, p4, p5, p6, p7, p8, p9, p10⟩ :=
    prepare_ok exE2_box hok.1 hok.2.2 hs.ok
  have hcld := prepare_closed exE2_box hok.1 hok.2.2 hs.ok p1
  have hhit : Hits exE2 [⟨3, none, 0⟩] s a 0 := by
    refine ⟨t, _, ht, rfl, ?_⟩
    rw [hp]
    refine ⟨3, 0, ?_, ?_⟩ <;> simp only [exE2, Rect.Mem] <;> norm_num
  obtain ⟨c, hcm, hac⟩ := (p7 a).2 (by
    obtain ⟨t, z, g1, g2, g3⟩ := hhit
    exact ⟨t, g1, Or.inr ⟨z, List.mem_of_getElem? g2, g3⟩⟩)
  obtain ⟨i, hi⟩ := List.mem_iff_getElem?.1 hcm
  have hct : c.targets = [a] := hone _ ((List.nodup_flatMap.1 p2.tnd).1 c hcm) fun b => by
    constructor
    · intro hb
      have := p2.tin c hcm b hb
      rw [p4, htg] at this
      simpa using this
    · rintro rfl; exact hac
  have hcr : c.reports = [0] := by
    rw [← List.perm_singleton,
      List.perm_ext_iff_of_nodup ((List.nodup_flatMap.1 p2.rnd).1 c hcm) (by simp)]
    intro j
    rw [(hcld c hcm a hac).1 j, List.mem_singleton]
    constructor
    · intro h
      have := h.lt
      simp only [List.length_cons, List.length_nil] at this
      omega
    · rintro rfl
      exact ⟨0, hhit, .refl⟩
  obtain ⟨v, hv, hsb⟩ := p9 a t ht
  obtain ⟨s', f1, f2, f3, f4, f5⟩ := removeLoop_ok exE2_box c.targets p3 (by rw [hct]; simp) (by
    intro b hb
    exact ⟨p2.tin c hcm b hb, fun h => h⟩)
  set g : Cfg (ℚ × ℚ) ℚ := ⟨s', initReps [⟨3, none, 0⟩] rcid ⟨0, none, 0⟩,
    fun k => if k = i then 1 else 0⟩ with hg
  have hga : g.st.heap a = some v := by rw [hg]; simp only [f2, hv]
  have horg : clOrigin exE2 g c = 3 := by
    unfold clOrigin
    rw [hct, hcr]
    have e1 : ([a].filterMap fun a => (g.st.heap a).map fun t => exE2.pos t.pdf) = [3] := by
      simp only [List.filterMap_cons, List.filterMap_nil, hga, Option.map_some, hsb.2.2.1, hp]
      rfl
    have e2 : (([0] : List Nat).map fun j => exE2.rpos (g.reps j).val) = [3] := rfl
    rw [e1, e2]
    show (3 + (3 + 0) : ℚ) / (2 : Nat) = 3
    norm_num
  refine ⟨s, a, t, cls, s1, rcid, i, g, c, forth exE2 (clOrigin exE2 g c) v, hrun, ?_, ?_, ?_, p1, ?_,
    hi, hac, by simp [hg], ?_, ?_, ?_⟩
  · simp only [getIn, q1, hq]
    exact hall _ _ ht
  · simp only [getAll, htg]
    exact hall _ _ ht
  · rw [hp]; rfl
  · simp only [clRun, clStep, hi, f1, hg]
  · obtain ⟨q', r1, r2, r3⟩ := query_ok exE2_box f5 ⟨2, 0, 4, 1⟩ hbv
    have : q' = [] := by
      rw [List.eq_nil_iff_forall_not_mem]
      intro b hb
      obtain ⟨r4, r5, _⟩ := (r3 b).1 hb
      rw [f3, p4, htg, List.mem_singleton] at r4
      exact r5 (Or.inr (by rw [hct, r4]; simp))
    subst this
    have r1 : query (seen exE2 (fun _ => clOrigin exE2 g c) [a] g.st) ⟨2, 0, 4, 1⟩ = some [] := r1
    simp only [getIn, r1, readAll]
  · have : (seen exE2 (fun _ => clOrigin exE2 g c) [a] g.st).targets = [a] := by
      show s'.targets = [a]
      rw [f3, p4, htg]
    rw [getAll, this]
    exact hall _ _ (by simp [seen, hga])
  · rw [horg]
    show v.pdf.1 - 3 = 0
    rw [hsb.2.2.1, hp]
    norm_num

end Verif.Tracker
